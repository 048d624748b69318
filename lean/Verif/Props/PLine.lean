import Verif.Lemmas.GocadPLine
import Verif.Props.GocadBody

/-!
# C04 and C05: saving and loading edged curves (`.pl`)
-/

set_option linter.unusedSectionVars false

namespace Verif.Props.PLine

open Verif Verif.Gocad Verif.GocadMesh Verif.GocadBody Verif.GocadWalk

variable {D : Type} [Num D]

/-! ## C05: termination, one record per edge -/

/-- Number of segment records of a file. -/
def nbSegs (f : File) : Nat := (f.filter fun l => startsWith l cs!"SEG ").length

theorem nbSegs_append (a b : File) : nbSegs (a ++ b) = nbSegs a + nbSegs b := by simp [nbSegs]

theorem nbSegs_zero {f : File} (h : ∀ l ∈ f, startsWith l cs!"SEG " = false) : nbSegs f = 0 := by
  unfold nbSegs
  rw [List.filter_eq_nil_iff.2 (fun l hl => by rw [h l hl]; simp)]
  rfl

theorem nbSegs_all {f : File} (h : ∀ l ∈ f, startsWith l cs!"SEG " = true) : nbSegs f = f.length := by
  unfold nbSegs
  rw [List.filter_eq_self.2 h]

theorem startsWith_segLine (a b : Nat) : startsWith (segLine a b) cs!"SEG " = true := rfl

theorem nbSegs_vlines {kw : Str} (hk : IsVrtxKw kw) (attrs : List (Attr D)) (pts : List (Pt D)) (id : Nat) (vs : List Nat) :
    nbSegs (vlines kw attrs pts id vs) = 0 := by
  apply nbSegs_zero
  induction vs generalizing id with
  | nil => simp [vlines]
  | cons v vs ih =>
    intro l hl
    rw [vlines] at hl
    rcases List.mem_cons.1 hl with rfl | hl
    · rcases hk with rfl | rfl <;> rfl
    · exact ih _ l hl

theorem nbSegs_lnText (m : Mesh Edge D) {kw : Str} (hk : IsVrtxKw kw) (attrs : List (Attr D)) (off : Nat) {l : Ln} (h : l.hs ≠ []) :
    nbSegs (lnText m kw attrs off l) = l.hs.length := by
  have hp := List.length_pos_iff.2 h
  have h1 : nbSegs (segLines off ((l.verts m.cells).length - 1)) = (l.verts m.cells).length - 1 := by
    rw [nbSegs_all]
    · simp [segLines]
    · intro x hx
      obtain ⟨i, _, rfl⟩ := List.mem_map.1 hx
      rfl
  have e : ∀ f : File, nbSegs (cs!"ILINE" :: f) = nbSegs f := fun f => by
    unfold nbSegs
    rw [List.filter_cons, if_neg (by decide)]
  unfold lnText
  rw [e, nbSegs_append, nbSegs_append, nbSegs_vlines hk, h1, Nat.zero_add]
  obtain ⟨hs, c⟩ := l
  cases hs with
  | nil => exact absurd rfl h
  | cons x xs =>
    cases c with
    | true =>
      simp only [if_true, List.head?_cons, Option.map_some, Option.toList]
      rw [nbSegs_all (f := [_]) (by simp [startsWith_segLine])]
      simp [Ln.verts]
    | false =>
      obtain ⟨y, hy⟩ : ∃ y, (x :: xs).getLast? = some y := ⟨_, List.getLast?_cons⟩
      simp [Ln.verts, nbSegs, hy]

theorem nbSegs_lnsText (m : Mesh Edge D) {kw : Str} (hk : IsVrtxKw kw) (attrs : List (Attr D)) (off : Nat) {ls : List Ln}
    (h : ∀ l ∈ ls, l.hs ≠ []) :
    nbSegs (lnsText m kw attrs off ls) = (ls.flatMap fun l => l.hs.map Prod.fst).length := by
  induction ls generalizing off with
  | nil => rfl
  | cons l ls ih =>
    rw [lnsText, nbSegs_append, nbSegs_lnText m hk attrs off (h l (by simp)), ih _ (fun a ha => h a (by simp [ha]))]
    simp

theorem writeProps_head {names : List Str} {l : Str} (h : l ∈ writeProps D names) :
    startsWith l cs!"SEG " = false ∧ startsWith l cs!"ILINE" = false := by
  unfold writeProps at h
  rcases List.mem_append.1 h with h | h
  · split at h
    · simp at h
    · simp only [writePropHeader, List.mem_cons, List.not_mem_nil, or_false] at h
      rcases h with rfl | rfl | rfl | rfl | rfl | rfl | rfl | rfl <;> exact ⟨rfl, rfl⟩
  · rcases classLines_head (names := names) h with ⟨r, rfl⟩ | ⟨r, rfl⟩ | ⟨r, rfl⟩ | ⟨r, rfl⟩ | rfl | rfl <;> exact ⟨rfl, rfl⟩

/-- Everything before the first polyline. -/
def headPL (m : Mesh Edge D) : File :=
  [cs!"GOCAD PLine 1"] ++ writeHeader (some cs!"edged_curve_name") ++ writeCrs {} ++ writeProps D ((writtenPL m.attrs).map Attr.name)

theorem nbSegs_head (m : Mesh Edge D) : nbSegs (headPL m) = 0 := by
  unfold headPL
  rw [nbSegs_append, nbSegs_zero (fun l hl => (writeProps_head hl).1)]
  rfl

/-- **C05.**  Whatever the topology of the curve (open lines, branching vertices, loops, isolated vertices, edges with two equal ends),
saving terminates without error, and the file has exactly one segment record per edge. -/
theorem save_one_seg_per_edge {m : Mesh Edge D} (ok : EdgesOk m) :
    ∃ f, savePL m = .ok f ∧ nbSegs f = m.cells.length := by
  obtain ⟨s, opens, loops, h1, h2, h3, h4, _⟩ := writeIlines_spec ok
  refine ⟨headPL m ++ s.out ++ [cs!"END"], ?_, ?_⟩
  · unfold savePL
    rw [h1]
    rfl
  · rw [nbSegs_append, nbSegs_append, nbSegs_head, h2, nbSegs_lnsText m (isVrtxKw_vrtxKeyword m.attrs) _ _ (fun l hl => (h4 l hl).2),
      h3.length_eq]
    simp [nbSegs, startsWith]

/-- **C05, which edges.**  The file is made of polylines; each polyline is a list of consecutive edges of the curve, walked from one
end to the other; taken together the polylines use every edge of the curve once. -/
theorem save_each_edge_once {m : Mesh Edge D} (ok : EdgesOk m) :
    ∃ ls : List Ln, savePL m = .ok (headPL m ++ lnsText m (vrtxKeyword m.attrs) (writtenPL m.attrs) 1 ls ++ [cs!"END"]) ∧
      (ls.flatMap fun l => l.hs.map Prod.fst).Perm (List.range m.cells.length) ∧ ∀ l ∈ ls, Chain m.cells l.hs ∧ l.hs ≠ [] := by
  obtain ⟨s, opens, loops, h1, h2, h3, h4, _⟩ := writeIlines_spec ok
  refine ⟨opens ++ loops, ?_, h3, h4⟩
  unfold savePL
  rw [h1, ← h2]
  rfl

/-- A curve with an open line, a branching vertex, a loop, an isolated vertex and an edge from a vertex to itself. -/
def curve : Mesh Edge Int where
  points := [⟨0, 0, 0⟩, ⟨1, 0, 0⟩, ⟨2, 0, 0⟩, ⟨3, 0, 0⟩, ⟨4, 0, 0⟩, ⟨5, 0, 0⟩, ⟨6, 0, 0⟩, ⟨7, 0, 0⟩, ⟨8, 0, 0⟩]
  cells := [(0, 1), (2, 1), (1, 3), (4, 5), (5, 6), (6, 4), (8, 8)]

example : EdgesOk curve := by unfold EdgesOk; decide

/-- Edges whose ends are not vertices of the curve are not saved normally: the hypothesis of C05 is needed. -/
example : savePL ({ points := [⟨0, 0, 0⟩], cells := [(0, 1)] } : Mesh Edge Int) = .ub := by decide +kernel

/-! ## C04: round trip -/

/-- A loop: a set of edges such that around each of their ends there are exactly two edge ends, both of edges of the set. -/
def IsLoop (edges : List Edge) (S : List Nat) : Prop :=
  S ≠ [] ∧ ∀ i ∈ S, i < edges.length ∧ ∀ b, (edgesAround edges (vtx edges (i, b))).length = 2 ∧
    ∀ g ∈ edgesAround edges (vtx edges (i, b)), g.1 ∈ S

/-- The curve has no closed loop (lines may branch and join at vertices with three edges or more). -/
def LoopFree (edges : List Edge) : Prop := ¬ ∃ S, IsLoop edges S

theorem all_open {m : Mesh Edge D} (hl : LoopFree m.cells) {done : List Nat} (hb : Bal m.cells done [])
    (hall : ∀ h : EV, h.1 < m.cells.length → deg m.cells (vtx m.cells h) ≠ 2 → h.1 ∈ done) : ∀ i < m.cells.length, i ∈ done := by
  intro i hi
  apply Classical.byContradiction
  intro hd
  apply hl
  refine ⟨(List.range m.cells.length).filter fun j => !done.contains j, ?_, ?_⟩
  · apply List.ne_nil_of_mem (a := i)
    rw [List.mem_filter]
    exact ⟨List.mem_range.2 hi, by simpa using hd⟩
  · intro j hj
    rw [List.mem_filter] at hj
    have hj1 := List.mem_range.1 hj.1
    have hj2 : j ∉ done := by simpa using hj.2
    refine ⟨hj1, fun b => ?_⟩
    have hdeg : (edgesAround m.cells (vtx m.cells (j, b))).length = 2 := by
      apply Classical.byContradiction
      intro h
      exact hj2 (hall (j, b) hj1 h)
    refine ⟨hdeg, ?_⟩
    intro g hg
    rw [mem_edgesAround] at hg
    rw [List.mem_filter]
    refine ⟨List.mem_range.2 hg.1, ?_⟩
    by_cases e : (j, b) = g
    · rw [← e]; exact hj.2
    · have p : Partner m.cells (j, b) g := ⟨e, hj1, hg.1, hg.2.symm, hdeg⟩
      have := hb _ _ p (by simp) (by simp)
      simpa using fun h => hj2 (this.2 h)

/-- Reading a file made of polylines. -/
theorem load_lines [LawfulNum D] (m : Mesh Edge D) {ls : List Ln} (hne : ls ≠ []) (hc : ∀ l ∈ ls, l.hs ≠ [])
    (hW : ∀ e ∈ lnsSegs m.cells 0 ls, 1 + e.1 < W ∧ 1 + e.2 < W) :
    loadPL (headPL m ++ lnsText m (vrtxKeyword m.attrs) (writtenPL m.attrs) 1 ls ++ [cs!"END"]) =
      buildCurve {} { name := some cs!"edged_curve_name", points := (ls.flatMap (Ln.verts m.cells)).map fun v => Pt.round (ptAt m v),
                      edges := lnsSegs m.cells 0 ls } := by
  have hseg : ∀ n, ∀ ls : List Ln, ∀ a b, (ERec.seg a b : ERec D) ∈ lnsRecs m n ls → (a, b) ∈ lnsSegs m.cells n ls := by
    intro n ls a b
    induction ls generalizing n with
    | nil => simp [lnsRecs]
    | cons l ls ih =>
      intro h
      rw [lnsRecs] at h
      rw [lnsSegs]
      rcases List.mem_cons.1 h with h | h
      · simp at h
      · rcases List.mem_append.1 h with h | h
        · unfold lnRecs at h
          rcases List.mem_append.1 h with h | h
          · obtain ⟨v, _, e⟩ := List.mem_map.1 h
            unfold vrec at e
            split at e <;> simp at e
          · obtain ⟨x, hx, e⟩ := List.mem_map.1 h
            simp only [ERec.seg.injEq] at e
            rw [← e.1, ← e.2]
            exact List.mem_append_left _ hx
        · exact List.mem_append_right _ (ih _ h)
  obtain ⟨rs, hrs⟩ : ∃ rs, lnsRecs m 0 ls = .iline :: rs := by
    cases ls with
    | nil => exact absurd rfl hne
    | cons l ls => exact ⟨_, rfl⟩
  obtain ⟨v, rs', hv⟩ : ∃ v rs', rs = vrec m v :: rs' := by
    cases ls with
    | nil => exact absurd rfl hne
    | cons l ls =>
      have hp := verts_length_pos (edges := m.cells) (hc l (by simp))
      cases hvs : l.verts m.cells with
      | nil => rw [hvs] at hp; simp at hp
      | cons v vs =>
        rw [lnsRecs, lnRecs, hvs] at hrs
        simp only [List.map_cons, List.cons_append, List.cons.injEq, true_and] at hrs
        exact ⟨v, _, hrs.symm⟩
  have htext : lnsText m (vrtxKeyword m.attrs) (writtenPL m.attrs) 1 ls = cs!"ILINE" :: renderE 1 0 (vrec m v :: rs') := by
    have := lnsText_eq m 0 hc
    rw [Nat.add_zero] at this
    rw [this, hrs, hv]
    rfl
  have hfits : FitsE 1 (vrec m v :: rs') := by
    refine ⟨by decide, ?_⟩
    intro a b h
    have : (ERec.seg a b : ERec D) ∈ lnsRecs m 0 ls := by rw [hrs, hv]; exact List.mem_cons_of_mem _ h
    exact hW _ (hseg 0 ls a b this)
  have hbody : ∀ ec : ECurve D, ec.points = [] →
      readIlinesLoop ec (renderE 1 0 (vrec m v :: rs') ++ [cs!"END"]) = .ok (setOffE 1 (meaningE ec (vrec m v :: rs')), []) := by
    intro ec he
    unfold vrec at hfits ⊢
    by_cases h : m.attrs.isEmpty = true
    · rw [if_pos h] at hfits ⊢
      exact read_bodyE _ _ he hfits (.theEnd [])
    · rw [if_neg h] at hfits ⊢
      exact read_bodyEP _ _ _ he hfits (.theEnd [])
  have hmean : meaningE { name := some cs!"edged_curve_name" } (vrec m v :: rs') =
      ({ name := some cs!"edged_curve_name", points := (ls.flatMap (Ln.verts m.cells)).map fun v => Pt.round (ptAt m v),
         edges := lnsSegs m.cells 0 ls } : ECurve D) := by
    have h1 : meaningE ({ name := some cs!"edged_curve_name" } : ECurve D) (lnsRecs m 0 ls) =
        meaningE { name := some cs!"edged_curve_name" } (vrec m v :: rs') := by rw [hrs, hv]; rfl
    rw [← h1, meaningE_lnsRecs]
    simp [pointOf, Pt.round]
  have e : headPL m ++ lnsText m (vrtxKeyword m.attrs) (writtenPL m.attrs) 1 ls ++ [cs!"END"] =
      cs!"GOCAD PLine 1" :: (writeHeader (some cs!"edged_curve_name") ++ (writeCrs {} ++
        (writeProps D ((writtenPL m.attrs).map Attr.name) ++ cs!"ILINE" :: (renderE 1 0 (vrec m v :: rs') ++ [cs!"END"])))) := by
    rw [htext]; simp [headPL]
  have hread : readECurve (headPL m ++ lnsText m (vrtxKeyword m.attrs) (writtenPL m.attrs) 1 ls ++ [cs!"END"]) =
      .ok (some (setOffE 1 (meaningE { name := some cs!"edged_curve_name" } (vrec m v :: rs')), [])) := by
    rw [e]
    unfold readECurve
    rw [gotoKeyword?, if_pos (by rfl)]
    simp only
    rw [readHeader_good (by intro n h; simp only [Option.some.injEq] at h; subst h; exact ⟨by decide, by decide⟩), Res.ok_bind]
    simp only
    rw [readCrs_default, Res.ok_bind]
    simp only
    unfold readIlines
    rw [gotoKeyword_skip (fun l hl => (writeProps_head hl).2), gotoKeyword_here (by rfl), Res.ok_bind]
    simp only
    rw [hbody _ rfl]
    rfl
  obtain ⟨k, hk⟩ : ∃ k, (headPL m ++ lnsText m (vrtxKeyword m.attrs) (writtenPL m.attrs) 1 ls ++ [cs!"END"]).length = k + 1 :=
    ⟨_, by rw [e]; rfl⟩
  unfold loadPL
  rw [hk, loadPLLoop, hread, Res.ok_bind]
  simp only
  have hb : ∀ ec : ECurve D, buildCurve ({} : Loaded Edge D) (setOffE 1 ec) = buildCurve {} ec := fun _ => rfl
  rw [hb, hmean]
  cases buildCurve ({} : Loaded Edge D) _ <;> rfl

theorem build_ok (points : List (Pt D)) (edges : List Edge) (name : Option Str) (hlt : ∀ e ∈ edges, e.1 < points.length ∧ e.2 < points.length)
    (hW : ∀ e ∈ edges, e.1 < W ∧ e.2 < W) :
    buildCurve {} { name := name, points := points, edges := edges } = .ok { name := name, points := points, cells := edges } := by
  unfold buildCurve
  have h : Res.mapM' (fun e : Edge =>
      let e' : Edge := (shift32 0 e.1, shift32 0 e.2)
      if e'.1 < points.length ∧ e'.2 < points.length then (.ok e' : Res Edge) else .ub) edges = .ok edges := by
    have := Res.mapM'_ok (f := fun e : Edge =>
      let e' : Edge := (shift32 0 e.1, shift32 0 e.2)
      if e'.1 < points.length ∧ e'.2 < points.length then (.ok e' : Res Edge) else .ub) (g := id) (l := edges) (by
        intro e he
        have h1 : shift32 0 e.1 = e.1 := Nat.mod_eq_of_lt (hW e he).1
        have h2 : shift32 0 e.2 = e.2 := Nat.mod_eq_of_lt (hW e he).2
        simp only [h1, h2, if_pos (hlt e he), id])
    simpa using this
  simp only [List.length_nil, List.nil_append]
  rw [h]
  cases name <;> rfl

/-- **C04 for curves with at least one edge and without closed loop.**  The curve loaded from the saved file is made of the same
segments: its edges correspond, up to their order, one to one to the edges of the saved curve, and corresponding edges join the same two
points (rounded as numbers are when written), in either direction. -/
theorem round_trip_partial [LawfulNum D] {m : Mesh Edge D} (ok : EdgesOk m) (hne : m.cells ≠ []) (hl : LoopFree m.cells)
    (hW : 2 * m.cells.length < W) :
    ∃ f l es, savePL m = .ok f ∧ loadPL f = .ok l ∧ es.Perm m.cells ∧
      List.Forall₂ (SameSeg l.points (m.points.map Pt.round)) l.cells es := by
  obtain ⟨s, opens, loops, h1, h2, h3, h4, h5, done, h6, h7, h8, h9⟩ := writeIlines_spec ok
  have hnl : loops = [] := h9 (all_open hl h7 h8)
  subst hnl
  rw [List.append_nil] at h2 h3 h4
  have hone : opens ≠ [] := by
    rintro rfl
    have := h3.length_eq
    simp at this
    exact hne (List.length_eq_zero_iff.1 this.symm)
  have hnb := nbVerts_le (edges := m.cells) (fun l hl => (h4 l hl).2)
  rw [h3.length_eq, List.length_range] at hnb
  have hlt := lnsSegs_lt (edges := m.cells) (n := 0) h5
  have hlen : ((opens.flatMap (Ln.verts m.cells)).map fun v => Pt.round (ptAt m v)).length = nbVerts m.cells opens := by
    simp [nbVerts, List.length_flatMap]
  refine ⟨headPL m ++ s.out ++ [cs!"END"],
    { name := some cs!"edged_curve_name", points := (opens.flatMap (Ln.verts m.cells)).map fun v => Pt.round (ptAt m v),
      cells := lnsSegs m.cells 0 opens }, edgesOf m.cells (opens.flatMap Ln.hs), ?_, ?_, ?_, ?_⟩
  · unfold savePL
    rw [h1]
    rfl
  · rw [h2, load_lines m hone (fun l hl => (h4 l hl).2) (fun e he => by have := hlt e he; omega)]
    refine build_ok _ _ _ (fun e he => ?_) (fun e he => ?_)
    · rw [hlen]; have := hlt e he; omega
    · have := hlt e he; omega
  · apply edgesOf_perm
    rw [List.map_flatMap]
    exact h3
  · have := openSegs_all ok opens h5 h4 (by
      intro l hl h hh
      have : h.1 ∈ List.range m.cells.length := by
        rw [← h3.mem_iff]
        exact List.mem_flatMap.2 ⟨l, hl, List.mem_map_of_mem hh⟩
      exact List.mem_range.1 this) []
    simpa using this

/-- A curve as in the theorem: three lines that meet at a vertex, with an attribute. -/
def tree : Mesh Edge Int where
  points := [⟨0, 0, 0⟩, ⟨1, 0, 0⟩, ⟨2, 0, 0⟩, ⟨3, 0, 0⟩, ⟨4, 0, 0⟩]
  cells := [(0, 1), (2, 1), (1, 3), (3, 4)]
  attrs := [{ name := cs!"a", val := fun v => v }]

theorem loopFree_tree : LoopFree tree.cells := by
  rintro ⟨S, hne, h⟩
  have k0 : ∀ i ∈ S, i ≠ 0 := by rintro i hi rfl; exact absurd (h 0 hi).2 (fun h => absurd (h false).1 (by decide))
  have k1 : ∀ i ∈ S, i ≠ 1 := by rintro i hi rfl; exact absurd (h 1 hi).2 (fun h => absurd (h false).1 (by decide))
  have k2 : ∀ i ∈ S, i ≠ 2 := by rintro i hi rfl; exact absurd (h 2 hi).2 (fun h => absurd (h false).1 (by decide))
  have k3 : ∀ i ∈ S, i ≠ 3 := by rintro i hi rfl; exact absurd (h 3 hi).2 (fun h => absurd (h true).1 (by decide))
  obtain ⟨i, hi⟩ := List.exists_mem_of_ne_nil S hne
  have h1 : i < 4 := (h i hi).1
  have := k0 i hi
  have := k1 i hi
  have := k2 i hi
  have := k3 i hi
  omega

example : EdgesOk tree ∧ tree.cells ≠ [] ∧ LoopFree tree.cells ∧ 2 * tree.cells.length < W :=
  ⟨by unfold EdgesOk; decide, by decide, loopFree_tree, by decide⟩

/-- A triangle whose first edge is not at vertex 0. -/
def triangle : Mesh Edge Int where
  points := [⟨0, 0, 0⟩, ⟨1, 0, 0⟩, ⟨0, 1, 0⟩]
  cells := [(1, 2), (2, 0), (0, 1)]

theorem load_save_triangle : ∃ f, savePL triangle = .ok f ∧
    (loadPL f : Res (Loaded Edge Int)) =
      .ok { name := some cs!"edged_curve_name", points := [⟨1, 0, 0⟩, ⟨0, 1, 0⟩, ⟨0, 0, 0⟩], cells := [(0, 1), (1, 2), (2, 1)] } :=
  ⟨_, rfl, by decide +kernel⟩

/-- **C04 fails for closed loops.**  The closing segment is written with the index of the vertex in the curve instead of its number in
the file.  The triangle comes back with one side doubled and another one missing. -/
theorem loop_not_preserved : ∃ f l, savePL triangle = .ok f ∧ loadPL f = .ok l ∧
    ¬ ∃ es, es.Perm triangle.cells ∧ List.Forall₂ (SameSeg l.points (triangle.points.map Pt.round)) l.cells es := by
  obtain ⟨f, h1, h2⟩ := load_save_triangle
  refine ⟨f, _, h1, h2, ?_⟩
  rintro ⟨es, hp, hf⟩
  -- one of the segments read must be the side from (1,0,0) to (0,0,0)
  have hm : ((0, 1) : Edge) ∈ es := hp.mem_iff.2 (by decide)
  obtain ⟨i, hi, e⟩ := List.getElem_of_mem hm
  have hlen := hf.length_eq
  have hs := (List.forall₂_iff_get.1 hf).2 i (by omega) hi
  simp only [List.get_eq_getElem, e] at hs
  have hi3 : i < 3 := by rw [← hlen] at hi; exact hi
  obtain ⟨a, b, ha, hb, hab⟩ := hs
  have q0 : (triangle.points.map Pt.round)[0]? = some ⟨0, 0, 0⟩ := rfl
  have q1 : (triangle.points.map Pt.round)[1]? = some ⟨1, 0, 0⟩ := rfl
  simp only [q0, q1] at hab
  match i, hi3 with
  | 0, _ =>
    simp only [List.getElem_cons_zero, List.getElem?_cons_zero, List.getElem?_cons_succ, Option.some.injEq] at ha hb
    subst ha hb
    revert hab; decide
  | 1, _ =>
    simp only [List.getElem_cons_succ, List.getElem_cons_zero, List.getElem?_cons_zero, List.getElem?_cons_succ, Option.some.injEq] at ha hb
    subst ha hb
    revert hab; decide
  | 2, _ =>
    simp only [List.getElem_cons_succ, List.getElem_cons_zero, List.getElem?_cons_zero, List.getElem?_cons_succ, Option.some.injEq] at ha hb
    subst ha hb
    revert hab; decide

/-- The same triangle after isolated vertices: the closing segment names a vertex that is not in the file, and loading the file gives
it to the builder (undefined behaviour). -/
theorem loop_after_isolated_vertices : ∃ f,
    savePL ({ points := [⟨9, 9, 9⟩, ⟨9, 9, 9⟩, ⟨9, 9, 9⟩, ⟨0, 0, 0⟩, ⟨1, 0, 0⟩, ⟨0, 1, 0⟩], cells := [(3, 4), (4, 5), (5, 3)] } : Mesh Edge Int) = .ok f ∧
      (loadPL f : Res (Loaded Edge Int)) = .ub :=
  ⟨_, rfl, by decide +kernel⟩

/-- A curve without edges is written without any `ILINE`, and the file is refused. -/
theorem no_edge_not_reloaded (m : Mesh Edge D) (h : m.cells = []) :
    ∃ f, savePL m = .ok f ∧ (loadPL f : Res (Loaded Edge D)) = .throw := by
  have hw : ∃ s, writeIlines m = .ok s ∧ s.out = [] := by
    have h0 : (startPoints m).flatMap (edgesAround m.cells) = [] := by
      rw [h]; simp [edgesAround, edgesAroundFrom]
    refine ⟨{}, ?_, rfl⟩
    unfold writeIlines
    simp only [h0, openIlines, Res.ok_bind]
    rw [h]
    simp [closedIlines, h]
  obtain ⟨s, h1, h2⟩ := hw
  refine ⟨headPL m ++ [cs!"END"], ?_, ?_⟩
  · unfold savePL
    rw [h1, Res.ok_bind, h2]
    simp [headPL]
  · have e : headPL m ++ [cs!"END"] = cs!"GOCAD PLine 1" :: (writeHeader (some cs!"edged_curve_name") ++ (writeCrs {} ++
        (writeProps D ((writtenPL m.attrs).map Attr.name) ++ [cs!"END"]))) := by simp [headPL]
    have hread : (readECurve (headPL m ++ [cs!"END"]) : Res (Option (ECurve D × File))) = .throw := by
      rw [e]
      unfold readECurve
      rw [gotoKeyword?, if_pos (by rfl)]
      simp only
      rw [readHeader_good (by intro n h; simp only [Option.some.injEq] at h; subst h; exact ⟨by decide, by decide⟩), Res.ok_bind]
      simp only
      rw [readCrs_default, Res.ok_bind]
      simp only
      unfold readIlines
      rw [gotoKeyword_skip (fun l hl => (writeProps_head hl).2)]
      rfl
    obtain ⟨k, hk⟩ : ∃ k, (headPL m ++ [cs!"END"]).length = k + 1 := ⟨_, by rw [e]; rfl⟩
    unfold loadPL
    rw [hk, loadPLLoop, hread]
    rfl

end Verif.Props.PLine
