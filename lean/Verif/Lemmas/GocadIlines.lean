import Verif.Lemmas.GocadWalk
import Mathlib.Data.List.Perm.Subperm

/-!
# The ilines written by the PLine writer
-/

set_option linter.unusedSectionVars false

namespace Verif.GocadWalk

open Verif Verif.Gocad Verif.GocadMesh

variable {D : Type} [Num D]

/-- A polyline in the file: its half-edges in order, and is it a closed loop? -/
structure Ln where
  hs : List EV
  closed : Bool

/-- Vertices of a polyline, in order (the first one is not repeated at the end of a loop). -/
def Ln.verts (edges : List Edge) (l : Ln) : List Nat :=
  l.hs.map (vtx edges) ++ if l.closed then [] else (l.hs.getLast?.map fun h => vtx edges (opp h)).toList

/-- Vertex lines of the vertices `vs`, numbered from `id`. -/
def vlines (kw : Str) (attrs : List (Attr D)) (pts : List (Pt D)) : Nat → List Nat → File
  | _, [] => []
  | id, v :: vs => vrtxLine kw attrs id v (pts.getD v ⟨Num.zero, Num.zero, Num.zero⟩) :: vlines kw attrs pts (id + 1) vs

/-- Text of a polyline whose first vertex has number `off`. -/
def lnText (m : Mesh Edge D) (kw : Str) (attrs : List (Attr D)) (off : Nat) (l : Ln) : File :=
  cs!"ILINE" :: (vlines kw attrs m.points off (l.verts m.cells) ++ segLines off ((l.verts m.cells).length - 1) ++
    if l.closed then (l.hs.head?.map fun h => segLine (off + (l.verts m.cells).length - 1) (vtx m.cells h + 1)).toList else [])

/-- Text of several polylines. -/
def lnsText (m : Mesh Edge D) (kw : Str) (attrs : List (Attr D)) : Nat → List Ln → File
  | _, [] => []
  | off, l :: ls => lnText m kw attrs off l ++ lnsText m kw attrs (off + (l.verts m.cells).length) ls

/-- Number of vertices of several polylines. -/
def nbVerts (edges : List Edge) (ls : List Ln) : Nat := (ls.map fun l => (l.verts edges).length).sum

theorem lnsText_append (m : Mesh Edge D) (kw : Str) (attrs : List (Attr D)) (off : Nat) (ls : List Ln) (l : Ln) :
    lnsText m kw attrs off (ls ++ [l]) = lnsText m kw attrs off ls ++ lnText m kw attrs (off + nbVerts m.cells ls) l := by
  induction ls generalizing off with
  | nil => simp [lnsText, nbVerts]
  | cons a ls ih =>
    rw [List.cons_append, lnsText, ih, lnsText]
    simp [nbVerts, Nat.add_assoc]

theorem nbVerts_append (edges : List Edge) (ls : List Ln) (l : Ln) :
    nbVerts edges (ls ++ [l]) = nbVerts edges ls + (l.verts edges).length := by
  simp [nbVerts]

/-- All edges of a curve join two of its vertices. -/
def EdgesOk (m : Mesh Edge D) : Prop := ∀ e ∈ m.cells, e.1 < m.points.length ∧ e.2 < m.points.length

theorem vtx_lt {m : Mesh Edge D} (ok : EdgesOk m) {h : EV} (hh : h.1 < m.cells.length) : vtx m.cells h < m.points.length := by
  unfold vtx
  rw [List.getElem?_eq_getElem hh]
  have := ok _ (List.getElem_mem hh)
  dsimp only
  split
  · exact this.2
  · exact this.1

theorem ilineVrtx_eq {kw : Str} {attrs : List (Attr D)} {pts : List (Pt D)} (id : Nat) (vs : List Nat)
    (h : ∀ v ∈ vs, v < pts.length) : ilineVrtx kw attrs pts id vs = .ok (vlines kw attrs pts id vs) := by
  induction vs generalizing id with
  | nil => rfl
  | cons v vs ih =>
    have hv := h v (by simp)
    rw [ilineVrtx, Res.index_of_lt hv, Res.ok_bind, ih _ (fun w hw => h w (by simp [hw])), Res.ok_bind]
    simp [vlines, hv]

/-- State of the writer after the polylines `ls`. -/
structure Inv (m : Mesh Edge D) (kw : Str) (attrs : List (Attr D)) (s : PLState) (ls : List Ln) : Prop where
  out : s.out = lnsText m kw attrs 1 ls
  offset : s.offset = 1 + nbVerts m.cells ls
  nb : s.nbDone = s.done.length
  perm : s.done.Perm (ls.flatMap fun l => l.hs.map Prod.fst)
  nodup : s.done.Nodup
  lt : ∀ i ∈ s.done, i < m.cells.length
  bal : Bal m.cells s.done []
  chain : ∀ l ∈ ls, Chain m.cells l.hs
  nonempty : ∀ l ∈ ls, l.hs ≠ []

theorem undone_le (edges : List Edge) (done : List Nat) : undone edges done ≤ edges.length := by
  unfold undone
  have := List.length_filter_le (fun i => !done.contains i) (List.range edges.length)
  simpa using this

theorem bal_weaken {edges : List Edge} {done : List Nat} {X Y : List EV} (h : Bal edges done X) (hxy : ∀ a ∈ X, a ∈ Y) :
    Bal edges done Y := fun a b p ha hb => h a b p (fun e => ha (hxy _ e)) (fun e => hb (hxy _ e))

/-- One call of `write_edge_and_vertex` from an edge not written yet. -/
theorem writeIline_spec {m : Mesh Edge D} (ok : EdgesOk m) {kw : Str} {attrs : List (Attr D)} {s : PLState} {ls : List Ln}
    (inv : Inv m kw attrs s ls) {ev : EV} (hev : ev.1 < m.cells.length) (hnew : ev.1 ∉ s.done) :
    ∃ s' evs hs last, writeIline m kw attrs ev s = .ok s' ∧ Walked m.cells ev s.done ev evs s'.done hs last ∧
      s'.out = s.out ++ (cs!"ILINE" :: (vlines kw attrs m.points s.offset (evs.map (vtx m.cells)) ++ segLines s.offset (evs.length - 1))) ∧
      s'.offset = s.offset + evs.length ∧ s'.nbDone = s.nbDone + (evs.length - 1) := by
  obtain ⟨evs, done', hs, last, hw, w⟩ := walk_spec ev (m.cells.length + 1) s.done ev hev hnew
    (by have := undone_le m.cells s.done; omega) (Or.inl rfl) (bal_weaken inv.bal (by simp))
  have hlt : ∀ h ∈ evs, h.1 < m.cells.length := by
    intro h hh
    have hl : last.1 < m.cells.length := (w.fresh last (List.mem_of_getLast? w.last_eq)).2
    rcases w.ending with ⟨e, _⟩ | ⟨e, _⟩
    · rw [e] at hh
      rcases List.mem_append.1 hh with hh | hh
      · exact (w.fresh h hh).2
      · simp only [List.mem_cons, List.not_mem_nil, or_false] at hh; rw [hh]; exact hl
    · rw [e] at hh; exact (w.fresh h hh).2
  have hv : Res.mapM' (evVertex m.cells) evs = .ok (evs.map (vtx m.cells)) :=
    Res.mapM'_ok fun h hh => evVertex_eq (hlt h hh)
  have hp : ∀ v ∈ evs.map (vtx m.cells), v < m.points.length := by
    intro v hv
    obtain ⟨h, hh, rfl⟩ := List.mem_map.1 hv
    exact vtx_lt ok (hlt h hh)
  unfold writeIline
  rw [hw]
  simp only [Res.ok_bind]
  rw [hv, Res.ok_bind, ilineVrtx_eq _ _ hp, Res.ok_bind]
  refine ⟨_, evs, hs, last, rfl, w, ?_, rfl, rfl⟩
  simp

theorem Walked.perm {edges : List Edge} {s : EV} {done : List Nat} {ev : EV} {evs : List EV} {done' : List Nat} {hs : List EV} {last : EV}
    (w : Walked edges s done ev evs done' hs last) : done'.Perm (hs.map Prod.fst ++ done) := by
  rw [w.done_eq]
  exact List.Perm.append_right _ (List.reverse_perm _)

theorem Walked.nodup' {edges : List Edge} {s : EV} {done : List Nat} {ev : EV} {evs : List EV} {done' : List Nat} {hs : List EV} {last : EV}
    (w : Walked edges s done ev evs done' hs last) (hn : done.Nodup) : done'.Nodup := by
  rw [w.perm.nodup_iff, List.nodup_append]
  refine ⟨w.nodup, hn, ?_⟩
  intro a ha b hb e
  obtain ⟨h, hh, rfl⟩ := List.mem_map.1 ha
  exact (w.fresh h hh).1 (by rw [e]; exact hb)

theorem Walked.mem {edges : List Edge} {s : EV} {done : List Nat} {ev : EV} {evs : List EV} {done' : List Nat} {hs : List EV} {last : EV}
    (w : Walked edges s done ev evs done' hs last) {i : Nat} : i ∈ done' ↔ (∃ h ∈ hs, h.1 = i) ∨ i ∈ done := by
  rw [w.perm.mem_iff, List.mem_append, List.mem_map]

theorem Walked.lt {edges : List Edge} {s : EV} {done : List Nat} {ev : EV} {evs : List EV} {done' : List Nat} {hs : List EV} {last : EV}
    (w : Walked edges s done ev evs done' hs last) (hl : ∀ i ∈ done, i < edges.length) : ∀ i ∈ done', i < edges.length := by
  intro i hi
  rcases w.mem.1 hi with ⟨h, hh, rfl⟩ | h
  · exact (w.fresh h hh).2
  · exact hl i h

theorem Walked.ev_mem {edges : List Edge} {s : EV} {done : List Nat} {ev : EV} {evs : List EV} {done' : List Nat} {hs : List EV} {last : EV}
    (w : Walked edges s done ev evs done' hs last) : ev.1 ∈ done' :=
  w.mem.2 (Or.inl ⟨ev, List.mem_of_head? w.head, rfl⟩)

theorem Walked.length {edges : List Edge} {s : EV} {done : List Nat} {ev : EV} {evs : List EV} {done' : List Nat} {hs : List EV} {last : EV}
    (w : Walked edges s done ev evs done' hs last) : done'.length = hs.length + done.length := by
  rw [w.done_eq]; simp

theorem Walked.ne_nil {edges : List Edge} {s : EV} {done : List Nat} {ev : EV} {evs : List EV} {done' : List Nat} {hs : List EV} {last : EV}
    (w : Walked edges s done ev evs done' hs last) : hs ≠ [] := by
  intro e; have := w.head; rw [e] at this; simp at this

/-- An iline started at a vertex that has not exactly two edges is an open line. -/
theorem openIline_spec {m : Mesh Edge D} (ok : EdgesOk m) {kw : Str} {attrs : List (Attr D)} {s : PLState} {ls : List Ln}
    (inv : Inv m kw attrs s ls) {ev : EV} (hev : ev.1 < m.cells.length) (hnew : ev.1 ∉ s.done) (hdeg : deg m.cells (vtx m.cells ev) ≠ 2) :
    ∃ s' l, writeIline m kw attrs ev s = .ok s' ∧ Inv m kw attrs s' (ls ++ [l]) ∧ l.closed = false ∧ ev.1 ∈ s'.done ∧
      ∀ i ∈ s.done, i ∈ s'.done := by
  obtain ⟨s', evs, hs, last, he, w, hout, hoff, hnb⟩ := writeIline_spec ok inv hev hnew
  have hnp : ∀ g, ¬ Partner m.cells ev g := fun g p => hdeg p.2.2.2.2
  obtain ⟨evq, hb⟩ : evs = hs ++ [opp last] ∧ Bal m.cells s'.done [] := by
    rcases w.ending with ⟨e, _, hb⟩ | ⟨_, hp, _⟩
    · refine ⟨e, fun a b p _ _ => hb a b p ?_ ?_⟩
      · simp only [List.mem_cons, List.not_mem_nil, or_false]; rintro rfl; exact hnp _ p
      · simp only [List.mem_cons, List.not_mem_nil, or_false]; rintro rfl; exact hnp _ p.symm
    · exact absurd hp.symm (hnp _)
  have hverts : (⟨hs, false⟩ : Ln).verts m.cells = evs.map (vtx m.cells) := by
    rw [evq]; simp [Ln.verts, w.last_eq]
  have hlen : ((⟨hs, false⟩ : Ln).verts m.cells).length = evs.length := by rw [hverts, List.length_map]
  refine ⟨s', ⟨hs, false⟩, he, ?_, rfl, w.ev_mem, fun i hi => w.mem.2 (Or.inr hi)⟩
  refine ⟨?_, ?_, ?_, ?_, w.nodup' inv.nodup, w.lt inv.lt, hb, ?_, ?_⟩
  · rw [hout, inv.out, lnsText_append, lnText, hverts, inv.offset]
    simp
  · rw [hoff, inv.offset, nbVerts_append, hlen, Nat.add_assoc]
  · rw [hnb, inv.nb, w.length, evq]; simp; omega
  · refine w.perm.trans (List.perm_append_comm.trans ?_)
    simpa using inv.perm.append_right _
  · intro l hl
    rcases List.mem_append.1 hl with hl | hl
    · exact inv.chain l hl
    · simp only [List.mem_cons, List.not_mem_nil, or_false] at hl; rw [hl]; exact w.chain
  · intro l hl
    rcases List.mem_append.1 hl with hl | hl
    · exact inv.nonempty l hl
    · simp only [List.mem_cons, List.not_mem_nil, or_false] at hl; rw [hl]; exact w.ne_nil

/-- The first loop of `write_ilines`. -/
theorem openIlines_spec {m : Mesh Edge D} (ok : EdgesOk m) {kw : Str} {attrs : List (Attr D)} (evs : List EV)
    (h : ∀ ev ∈ evs, ev.1 < m.cells.length ∧ deg m.cells (vtx m.cells ev) ≠ 2) {s : PLState} {ls : List Ln}
    (inv : Inv m kw attrs s ls) (ho : ∀ l ∈ ls, l.closed = false) :
    ∃ s' ls', openIlines m kw attrs evs s = .ok s' ∧ Inv m kw attrs s' ls' ∧ (∀ l ∈ ls', l.closed = false) ∧
      (∀ ev ∈ evs, ev.1 ∈ s'.done) ∧ ∀ i ∈ s.done, i ∈ s'.done := by
  induction evs generalizing s ls with
  | nil => exact ⟨s, ls, rfl, inv, ho, by simp, fun _ h => h⟩
  | cons ev evs ih =>
    rw [openIlines]
    have hev := h ev (by simp)
    have h' : ∀ ev ∈ evs, ev.1 < m.cells.length ∧ deg m.cells (vtx m.cells ev) ≠ 2 := fun e he => h e (by simp [he])
    by_cases hd : isDone s.done ev.1 = true
    · rw [if_pos hd]
      obtain ⟨s', ls', h1, h2, h3, h4, h5⟩ := ih h' inv ho
      refine ⟨s', ls', h1, h2, h3, ?_, h5⟩
      intro e he
      rcases List.mem_cons.1 he with rfl | he
      · exact h5 _ (by simpa [isDone] using hd)
      · exact h4 e he
    · rw [if_neg hd]
      obtain ⟨s1, l, e1, inv1, hl, hm, hsub⟩ := openIline_spec ok inv hev.1 (by simpa [isDone] using hd) hev.2
      rw [e1, Res.ok_bind]
      obtain ⟨s', ls', h1, h2, h3, h4, h5⟩ := ih h' inv1 (by
        intro a ha
        rcases List.mem_append.1 ha with ha | ha
        · exact ho a ha
        · simp only [List.mem_cons, List.not_mem_nil, or_false] at ha; rw [ha]; exact hl)
      refine ⟨s', ls', h1, h2, h3, ?_, fun i hi => h5 i (hsub i hi)⟩
      intro e he
      rcases List.mem_cons.1 he with rfl | he
      · exact h5 _ hm
      · exact h4 e he

/-- A polyline that is a whole closed loop: it comes back to the vertex it starts at, all its vertices have two edges, and both are in it. -/
structure Ring (edges : List Edge) (l : Ln) : Prop where
  closed : l.closed = true
  ends : ∃ h last, l.hs.head? = some h ∧ h.2 = false ∧ l.hs.getLast? = some last ∧ Partner edges (opp last) h
  both : ∀ h g, Partner edges h g → h.1 ∈ l.hs.map Prod.fst → g.1 ∈ l.hs.map Prod.fst
  two : ∀ h : EV, h.1 ∈ l.hs.map Prod.fst → deg edges (vtx edges h) = 2

/-- An iline started when only loops are left is a closed loop. -/
theorem closedIline_spec {m : Mesh Edge D} (ok : EdgesOk m) {kw : Str} {attrs : List (Attr D)} {s : PLState} {ls : List Ln}
    (inv : Inv m kw attrs s ls) (hall : ∀ h : EV, h.1 < m.cells.length → deg m.cells (vtx m.cells h) ≠ 2 → h.1 ∈ s.done)
    {ev : EV} (hev : ev.1 < m.cells.length) (hnew : ev.1 ∉ s.done) (hfirst : ev.2 = false) :
    ∃ s' l, writeIline m kw attrs ev s = .ok s' ∧
      Inv m kw attrs { s' with out := s'.out ++ [segLine (s'.offset - 1) (vtx m.cells ev + 1)], nbDone := s'.nbDone + 1 } (ls ++ [l]) ∧
      ev.1 ∈ s'.done ∧ (∀ i ∈ s.done, i ∈ s'.done) ∧ s.done.length < s'.done.length ∧ Ring m.cells l ∧ l.hs.head? = some ev := by
  obtain ⟨s', evs, hs, last, he, w, hout, hoff, hnb⟩ := writeIline_spec ok inv hev hnew
  have hlast := w.fresh last (List.mem_of_getLast? w.last_eq)
  obtain ⟨evq, hb, hpart⟩ : evs = hs ∧ Bal m.cells s'.done [] ∧ Partner m.cells (opp last) ev := by
    rcases w.ending with ⟨_, hd, _⟩ | ⟨e, hp, hb⟩
    · exact absurd (hall (opp last) hlast.2 hd) hlast.1
    · exact ⟨e, hb, hp⟩
  have hfresh : ∀ i ∈ hs.map Prod.fst, i ∉ s.done ∧ i < m.cells.length := by
    intro i hi
    obtain ⟨x, hx, rfl⟩ := List.mem_map.1 hi
    exact w.fresh x hx
  have hring : Ring m.cells ⟨hs, true⟩ := by
    refine ⟨rfl, ⟨ev, last, w.head, hfirst, w.last_eq, hpart⟩, ?_, ?_⟩
    · intro h g p hh
      have h1 : g.1 ∈ s'.done := (hb h g p (by simp) (by simp)).1 (w.mem.2 (Or.inl (List.mem_map.1 hh)))
      rcases w.mem.1 h1 with h1 | h1
      · exact List.mem_map.2 h1
      · exact absurd ((inv.bal h g p (by simp) (by simp)).2 h1) (hfresh _ hh).1
    · intro h hh
      apply Classical.byContradiction
      intro hd
      exact (hfresh _ hh).1 (hall h (hfresh _ hh).2 hd)
  have hverts : (⟨hs, true⟩ : Ln).verts m.cells = evs.map (vtx m.cells) := by
    rw [evq]; simp [Ln.verts]
  have hlen : ((⟨hs, true⟩ : Ln).verts m.cells).length = evs.length := by rw [hverts, List.length_map]
  have hpos : 0 < hs.length := List.length_pos_iff.2 w.ne_nil
  refine ⟨s', ⟨hs, true⟩, he, ?_, w.ev_mem, fun i hi => w.mem.2 (Or.inr hi), by rw [w.length]; omega, hring, w.head⟩
  refine ⟨?_, ?_, ?_, ?_, w.nodup' inv.nodup, w.lt inv.lt, hb, ?_, ?_⟩
  · rw [lnsText_append, lnText, hverts]
    dsimp only
    rw [hout, hoff, inv.out, inv.offset, w.head]
    simp
  · dsimp only
    rw [hoff, inv.offset, nbVerts_append, hlen, Nat.add_assoc]
  · dsimp only
    rw [hnb, inv.nb, w.length, evq]; omega
  · refine w.perm.trans (List.perm_append_comm.trans ?_)
    simpa using inv.perm.append_right _
  · intro l hl
    rcases List.mem_append.1 hl with hl | hl
    · exact inv.chain l hl
    · simp only [List.mem_cons, List.not_mem_nil, or_false] at hl; rw [hl]; exact w.chain
  · intro l hl
    rcases List.mem_append.1 hl with hl | hl
    · exact inv.nonempty l hl
    · simp only [List.mem_cons, List.not_mem_nil, or_false] at hl; rw [hl]; exact w.ne_nil

theorem exists_undone {n : Nat} {done : List Nat} (hlt : ∀ i ∈ done, i < n) (hn : done.Nodup) (hne : done.length ≠ n) :
    startingEdge n done < n ∧ startingEdge n done ∉ done := by
  unfold startingEdge
  cases hf : (List.range n).find? (fun e => !isDone done e) with
  | some x =>
    have h1 := List.mem_of_find?_eq_some hf
    have h2 := List.find?_some hf
    simp only [List.mem_range] at h1
    exact ⟨h1, by simpa [isDone] using h2⟩
  | none =>
    exfalso
    rw [List.find?_eq_none] at hf
    have hsub : List.range n ⊆ done := by
      intro i hi
      have := hf i hi
      simpa [isDone] using this
    have h1 := (List.nodup_range.subperm hsub).length_le
    have h2 := (hn.subperm (fun i hi => List.mem_range.2 (hlt i hi) : done ⊆ List.range n)).length_le
    simp at h1 h2
    omega

theorem done_length_le {n : Nat} {done : List Nat} (hlt : ∀ i ∈ done, i < n) (hn : done.Nodup) : done.length ≤ n := by
  have h2 := (hn.subperm (fun i hi => List.mem_range.2 (hlt i hi) : done ⊆ List.range n)).length_le
  simpa using h2

theorem vtx_false {edges : List Edge} {i : Nat} (h : i < edges.length) : vtx edges (i, false) = edges[i].1 := by
  simp [vtx, h]

/-- The second loop of `write_ilines`. -/
theorem closedIlines_spec {m : Mesh Edge D} (ok : EdgesOk m) {kw : Str} {attrs : List (Attr D)} (fuel : Nat) {s : PLState} {ls : List Ln}
    (inv : Inv m kw attrs s ls) (hall : ∀ h : EV, h.1 < m.cells.length → deg m.cells (vtx m.cells h) ≠ 2 → h.1 ∈ s.done)
    (hfuel : m.cells.length ≤ s.done.length + fuel) :
    ∃ s' ls', closedIlines m kw attrs fuel s = .ok s' ∧ Inv m kw attrs s' (ls ++ ls') ∧ s'.done.length = m.cells.length ∧
      (s.done.length = m.cells.length → ls' = []) ∧ (∀ l ∈ ls', Ring m.cells l) ∧
      (s.done = [] → ∀ l, ls'.head? = some l → l.hs.head? = some (0, false)) := by
  induction fuel generalizing s ls with
  | zero =>
    have h := done_length_le inv.lt inv.nodup
    have e : s.nbDone = m.cells.length := by rw [inv.nb]; omega
    refine ⟨s, [], ?_, by simpa using inv, by rw [← inv.nb, e], fun _ => rfl, by simp, by simp⟩
    rw [closedIlines, if_pos e]
  | succ fuel ih =>
    rw [closedIlines]
    by_cases hd : s.nbDone = m.cells.length
    · rw [if_pos hd]
      exact ⟨s, [], rfl, by simpa using inv, by rw [← inv.nb, hd], fun _ => rfl, by simp, by simp⟩
    · rw [if_neg hd]
      obtain ⟨h1, h2⟩ := exists_undone inv.lt inv.nodup (by rw [← inv.nb]; exact hd)
      obtain ⟨s1, l, e1, inv1, hm, hsub, hlt, hring, hhead⟩ := closedIline_spec ok inv hall (ev := (startingEdge m.cells.length s.done, false)) h1 h2 rfl
      simp only
      rw [e1, Res.ok_bind, Res.index_of_lt h1, Res.ok_bind]
      rw [vtx_false h1] at inv1
      obtain ⟨s', ls', e2, inv2, hl, _, hrings, _⟩ := ih inv1 (fun h hh hd' => hsub _ (hall h hh hd')) (by
        show m.cells.length ≤ s1.done.length + fuel
        omega)
      refine ⟨s', l :: ls', e2, by simpa using inv2, hl, fun h => ?_, List.forall_mem_cons.2 ⟨hring, hrings⟩, fun h0 l' hl' => ?_⟩
      · rw [← inv.nb] at h
        exact absurd h hd
      · simp only [List.head?_cons, Option.some.injEq] at hl'
        subst hl'
        rw [hhead, h0]
        have : startingEdge m.cells.length [] = 0 := by
          unfold startingEdge
          cases m.cells.length with
          | zero => rfl
          | succ n => rw [List.range_succ_eq_map]; rfl
        rw [this]

/-- **`write_ilines`.**  It terminates; the polylines written use every edge of the curve exactly once; the last ones are whole loops. -/
theorem writeIlines_rings {m : Mesh Edge D} (ok : EdgesOk m) :
    ∃ s opens loops, writeIlines m = .ok s ∧ s.out = lnsText m (vrtxKeyword m.attrs) (writtenPL m.attrs) 1 (opens ++ loops) ∧
      ((opens ++ loops).flatMap fun l => l.hs.map Prod.fst).Perm (List.range m.cells.length) ∧
      (∀ l ∈ opens ++ loops, Chain m.cells l.hs ∧ l.hs ≠ []) ∧ (∀ l ∈ opens, l.closed = false) ∧
      (∃ done : List Nat, (∀ i ∈ done, i < m.cells.length) ∧ Bal m.cells done [] ∧
        (∀ h : EV, h.1 < m.cells.length → deg m.cells (vtx m.cells h) ≠ 2 → h.1 ∈ done) ∧
        ((∀ i < m.cells.length, i ∈ done) → loops = [])) ∧ (∀ l ∈ loops, Ring m.cells l) ∧
      ((∀ h : EV, h.1 < m.cells.length → deg m.cells (vtx m.cells h) = 2) → opens = [] ∧ ∀ l, loops.head? = some l → l.hs.head? = some (0, false)) := by
  have inv0 : Inv m (vrtxKeyword m.attrs) (writtenPL m.attrs) {} [] :=
    ⟨rfl, rfl, rfl, by simp, by simp, by simp, fun _ _ _ _ _ => by simp, by simp, by simp⟩
  obtain ⟨s1, ls1, e1, inv1, ho, hev, _⟩ := openIlines_spec ok ((startPoints m).flatMap (edgesAround m.cells)) (by
    intro ev hev
    obtain ⟨v, hv, hm⟩ := List.mem_flatMap.1 hev
    rw [mem_edgesAround] at hm
    refine ⟨hm.1, ?_⟩
    unfold startPoints at hv
    rw [List.mem_filter] at hv
    rw [hm.2]
    simpa [deg] using hv.2) inv0 (by simp)
  have hall : ∀ h : EV, h.1 < m.cells.length → deg m.cells (vtx m.cells h) ≠ 2 → h.1 ∈ s1.done := by
    intro h hh hd
    refine hev h (List.mem_flatMap.2 ⟨vtx m.cells h, ?_, mem_edgesAround.2 ⟨hh, rfl⟩⟩)
    unfold startPoints
    rw [List.mem_filter]
    refine ⟨List.mem_range.2 (vtx_lt ok hh), by simpa [deg] using hd⟩
  obtain ⟨s2, ls2, e2, inv2, hl, hnone, hrings, hfirst⟩ := closedIlines_spec ok m.cells.length inv1 hall (by omega)
  refine ⟨s2, ls1, ls2, ?_, inv2.out, ?_, fun l hm => ⟨inv2.chain l hm, inv2.nonempty l hm⟩, ho, ⟨s1.done, inv1.lt, inv1.bal, hall, ?_⟩, hrings, ?_⟩
  · unfold writeIlines
    simp only [e1, Res.ok_bind]
    exact e2
  · refine inv2.perm.symm.trans ?_
    exact (inv2.nodup.subperm (fun i hi => List.mem_range.2 (inv2.lt i hi) : s2.done ⊆ List.range m.cells.length)).perm_of_length_le
      (by simp [hl])
  · intro h
    apply hnone
    have h1 := (List.nodup_range.subperm (fun i hi => h i (List.mem_range.1 hi) : List.range m.cells.length ⊆ s1.done)).length_le
    have h2 := done_length_le inv1.lt inv1.nodup
    simp at h1
    omega
  · intro h
    have h0 : (startPoints m).flatMap (edgesAround m.cells) = [] := by
      apply List.eq_nil_iff_forall_not_mem.2
      intro ev hev
      obtain ⟨v, hv, hm⟩ := List.mem_flatMap.1 hev
      rw [mem_edgesAround] at hm
      unfold startPoints at hv
      rw [List.mem_filter] at hv
      have := h ev hm.1
      rw [hm.2] at this
      simp [deg] at this
      simp [this] at hv
    rw [h0, openIlines] at e1
    simp only [Res.ok.injEq] at e1
    subst e1
    refine ⟨?_, hfirst rfl⟩
    have := inv1.perm.symm
    have hnil := List.Perm.eq_nil this
    cases ls1 with
    | nil => rfl
    | cons l ls1 =>
      have hne := inv1.nonempty l (by simp)
      simp [hne] at hnil

/-- `write_ilines`, without the shape of the loops. -/
theorem writeIlines_spec {m : Mesh Edge D} (ok : EdgesOk m) :
    ∃ s opens loops, writeIlines m = .ok s ∧ s.out = lnsText m (vrtxKeyword m.attrs) (writtenPL m.attrs) 1 (opens ++ loops) ∧
      ((opens ++ loops).flatMap fun l => l.hs.map Prod.fst).Perm (List.range m.cells.length) ∧
      (∀ l ∈ opens ++ loops, Chain m.cells l.hs ∧ l.hs ≠ []) ∧ (∀ l ∈ opens, l.closed = false) ∧
      (∃ done : List Nat, (∀ i ∈ done, i < m.cells.length) ∧ Bal m.cells done [] ∧
        (∀ h : EV, h.1 < m.cells.length → deg m.cells (vtx m.cells h) ≠ 2 → h.1 ∈ done) ∧
        ((∀ i < m.cells.length, i ∈ done) → loops = [])) := by
  obtain ⟨s, opens, loops, h1, h2, h3, h4, h5, h6, _⟩ := writeIlines_rings ok
  exact ⟨s, opens, loops, h1, h2, h3, h4, h5, h6⟩

end Verif.GocadWalk
