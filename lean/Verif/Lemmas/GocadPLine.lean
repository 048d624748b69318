import Verif.Lemmas.GocadIlines
import Verif.Lemmas.GocadBody

/-!
# Reading the polylines back
-/

set_option linter.unusedSectionVars false

namespace Verif.GocadWalk

open Verif Verif.Gocad Verif.GocadMesh Verif.GocadBody

variable {D : Type} [Num D]

/-- Point of a vertex. -/
def ptAt (m : Mesh Edge D) (v : Nat) : Pt D := m.points.getD v ⟨Num.zero, Num.zero, Num.zero⟩

/-- Record of a vertex. -/
def vrec (m : Mesh Edge D) (v : Nat) : ERec D :=
  if m.attrs.isEmpty then .vrtx (ptAt m v) else .pvrtx (ptAt m v) ((writtenPL m.attrs).map fun a => Num.castF (a.val v))

theorem vrec_line (m : Mesh Edge D) (n v : Nat) :
    (vrec m v).line 1 n = vrtxLine (vrtxKeyword m.attrs) (writtenPL m.attrs) (1 + n) v (ptAt m v) := by
  unfold vrec vrtxKeyword vrtxLine
  by_cases h : m.attrs.isEmpty = true
  · have e : m.attrs = [] := by simpa using h
    rw [e]
    simp [writtenPL, valueToks, ERec.line]
  · simp only [h, Bool.false_eq_true, if_false, ERec.line, valueToks, List.map_map, Function.comp_def]

theorem vrec_defines (m : Mesh Edge D) (v : Nat) : (vrec m v).defines = true := by
  unfold vrec; split <;> rfl

theorem vrec_step (m : Mesh Edge D) (v : Nat) (ec : ECurve D) :
    (vrec m v).step ec = { ec with points := ec.points ++ [pointOf ec.crs.zPos (ptAt m v)] } := by
  unfold vrec; split <;> rfl

/-- Segments of `k + 1` consecutive vertices from `n` on. -/
def runSegs (n k : Nat) : List Edge := (List.range k).map fun i => (n + i, n + i + 1)

/-- Segments of a polyline as they are in the file, the first vertex having index `n`. -/
def lnSegs (edges : List Edge) (n : Nat) (l : Ln) : List Edge :=
  runSegs n ((l.verts edges).length - 1) ++
    if l.closed then (l.hs.head?.map fun h => (n + (l.verts edges).length - 1, vtx edges h)).toList else []

/-- Segments of several polylines as they are in the file. -/
def lnsSegs (edges : List Edge) : Nat → List Ln → List Edge
  | _, [] => []
  | n, l :: ls => lnSegs edges n l ++ lnsSegs edges (n + (l.verts edges).length) ls

/-- Records of a polyline after `ILINE`. -/
def lnRecs (m : Mesh Edge D) (n : Nat) (l : Ln) : List (ERec D) :=
  (l.verts m.cells).map (vrec m) ++ (lnSegs m.cells n l).map fun e => .seg e.1 e.2

/-- Records of several polylines. -/
def lnsRecs (m : Mesh Edge D) : Nat → List Ln → List (ERec D)
  | _, [] => []
  | n, l :: ls => .iline :: (lnRecs m n l ++ lnsRecs m (n + (l.verts m.cells).length) ls)

/-- Number of vertices of a list of records. -/
def nbDefs (rs : List (ERec D)) : Nat := (rs.filter ERec.defines).length

theorem renderE_append (base n : Nat) (a b : List (ERec D)) :
    renderE base n (a ++ b) = renderE base n a ++ renderE base (n + nbDefs a) b := by
  induction a generalizing n with
  | nil => rfl
  | cons r a ih =>
    rw [List.cons_append, renderE, ih, renderE, List.cons_append]
    cases h : r.defines with
    | false => simp [nbDefs, h]
    | true =>
      simp only [nbDefs, List.filter_cons, h, if_true, List.length_cons]
      rw [show n + 1 + (List.filter ERec.defines a).length = n + ((List.filter ERec.defines a).length + 1) by omega]

theorem renderE_vrecs (m : Mesh Edge D) (n : Nat) (vs : List Nat) :
    renderE 1 n (vs.map (vrec m)) = vlines (vrtxKeyword m.attrs) (writtenPL m.attrs) m.points (1 + n) vs := by
  induction vs generalizing n with
  | nil => rfl
  | cons v vs ih =>
    rw [List.map_cons, renderE, vrec_line, vrec_defines, if_pos rfl, ih, vlines]
    rfl

theorem nbDefs_vrecs (m : Mesh Edge D) (vs : List Nat) : nbDefs (vs.map (vrec m)) = vs.length := by
  induction vs with
  | nil => rfl
  | cons v vs ih => rw [List.map_cons, nbDefs, List.filter_cons, vrec_defines]; simp only [if_true, List.length_cons]; unfold nbDefs at ih; rw [ih]

theorem renderE_segs (n : Nat) (es : List Edge) :
    renderE (D := D) 1 n (es.map fun e => .seg e.1 e.2) = es.map fun e => segLine (1 + e.1) (1 + e.2) := by
  induction es with
  | nil => rfl
  | cons e es ih => rw [List.map_cons, renderE, List.map_cons]; simp only [ERec.defines, Bool.false_eq_true, if_false]; rw [ih]; rfl

theorem nbDefs_segs (es : List Edge) : nbDefs (D := D) (es.map fun e => .seg e.1 e.2) = 0 := by
  induction es with
  | nil => rfl
  | cons e es ih => rw [List.map_cons, nbDefs, List.filter_cons]; exact ih

theorem nbDefs_append (a b : List (ERec D)) : nbDefs (a ++ b) = nbDefs a + nbDefs b := by simp [nbDefs]

theorem verts_length_pos {edges : List Edge} {l : Ln} (h : l.hs ≠ []) : 0 < (l.verts edges).length := by
  have := List.length_pos_iff.2 h
  simp only [Ln.verts, List.length_append, List.length_map]
  omega

theorem lnText_eq (m : Mesh Edge D) (n : Nat) {l : Ln} (h : l.hs ≠ []) :
    lnText m (vrtxKeyword m.attrs) (writtenPL m.attrs) (1 + n) l = cs!"ILINE" :: renderE 1 n (lnRecs m n l) := by
  have hp := verts_length_pos (edges := m.cells) h
  unfold lnText lnRecs
  rw [renderE_append, renderE_vrecs, renderE_segs, List.append_assoc]
  congr 2
  unfold lnSegs
  rw [List.map_append]
  congr 1
  · simp only [segLines, runSegs, List.map_map]
    apply List.map_congr_left
    intro i _
    simp only [Function.comp, Nat.add_assoc]
  · split
    · cases l.hs with
      | nil => rfl
      | cons x xs =>
        simp only [List.head?_cons, Option.map_some, Option.toList, List.map_cons, List.map_nil]
        rw [show 1 + n + (l.verts m.cells).length - 1 = 1 + (n + (l.verts m.cells).length - 1) by omega, Nat.add_comm (vtx m.cells x)]
    · rfl

theorem nbDefs_lnRecs (m : Mesh Edge D) (n : Nat) (l : Ln) : nbDefs (lnRecs m n l) = (l.verts m.cells).length := by
  unfold lnRecs
  rw [nbDefs_append, nbDefs_vrecs, nbDefs_segs, Nat.add_zero]

theorem lnsText_eq (m : Mesh Edge D) (n : Nat) {ls : List Ln} (h : ∀ l ∈ ls, l.hs ≠ []) :
    lnsText m (vrtxKeyword m.attrs) (writtenPL m.attrs) (1 + n) ls = renderE 1 n (lnsRecs m n ls) := by
  induction ls generalizing n with
  | nil => rfl
  | cons l ls ih =>
    rw [lnsText, lnText_eq m n (h l (by simp)), lnsRecs, renderE, renderE_append, nbDefs_lnRecs, List.cons_append, Nat.add_assoc,
      ih _ (fun a ha => h a (by simp [ha]))]
    rfl

/-! ## What the records say -/

theorem meaningE_append (ec : ECurve D) (a b : List (ERec D)) : meaningE ec (a ++ b) = meaningE (meaningE ec a) b := by
  simp [meaningE]

theorem meaningE_vrecs (m : Mesh Edge D) (vs : List Nat) (ec : ECurve D) :
    meaningE ec (vs.map (vrec m)) = { ec with points := ec.points ++ vs.map fun v => pointOf ec.crs.zPos (ptAt m v) } := by
  induction vs generalizing ec with
  | nil => simp [meaningE]
  | cons v vs ih =>
    rw [List.map_cons]
    show meaningE ((vrec m v).step ec) (vs.map (vrec m)) = _
    rw [ih, vrec_step]
    simp

theorem meaningE_segs (es : List Edge) (ec : ECurve D) :
    meaningE ec (es.map fun e => .seg e.1 e.2) = { ec with edges := ec.edges ++ es } := by
  induction es generalizing ec with
  | nil => simp [meaningE]
  | cons e es ih =>
    rw [List.map_cons]
    show meaningE (ERec.step ec (.seg e.1 e.2)) _ = _
    rw [ih]
    simp [ERec.step]

theorem meaningE_lnsRecs (m : Mesh Edge D) (n : Nat) (ls : List Ln) (ec : ECurve D) :
    meaningE ec (lnsRecs m n ls) = { ec with
      points := ec.points ++ (ls.flatMap (Ln.verts m.cells)).map fun v => pointOf ec.crs.zPos (ptAt m v)
      edges := ec.edges ++ lnsSegs m.cells n ls } := by
  induction ls generalizing n ec with
  | nil => simp [meaningE, lnsRecs, lnsSegs]
  | cons l ls ih =>
    show meaningE ec (lnRecs m n l ++ lnsRecs m (n + (l.verts m.cells).length) ls) = _
    rw [meaningE_append, lnRecs, meaningE_append, meaningE_vrecs, meaningE_segs, ih]
    simp [lnsSegs]

/-! ## The segments of open lines -/

/-- The segment `c` of the vertices `P` joins the same two points as the segment `e` of the vertices `Q`. -/
def SameSeg (P Q : List (Pt D)) (c e : Edge) : Prop :=
  ∃ a b, P[c.1]? = some a ∧ P[c.2]? = some b ∧ ((Q[e.1]? = some a ∧ Q[e.2]? = some b) ∨ (Q[e.1]? = some b ∧ Q[e.2]? = some a))

theorem pt_get {m : Mesh Edge D} {v : Nat} (h : v < m.points.length) :
    (m.points.map Pt.round)[v]? = some (Pt.round (ptAt m v)) := by
  simp [ptAt, h]

theorem sameSeg_half {m : Mesh Edge D} (ok : EdgesOk m) {h : EV} (hh : h.1 < m.cells.length) {P : List (Pt D)} {c : Edge}
    (h1 : P[c.1]? = some (Pt.round (ptAt m (vtx m.cells h)))) (h2 : P[c.2]? = some (Pt.round (ptAt m (vtx m.cells (opp h))))) :
    SameSeg P (m.points.map Pt.round) c m.cells[h.1] := by
  refine ⟨_, _, h1, h2, ?_⟩
  have hlt := ok _ (List.getElem_mem hh)
  obtain ⟨i, b⟩ := h
  have e1 : vtx m.cells (i, false) = m.cells[i].1 := vtx_false hh
  have e2 : vtx m.cells (i, true) = m.cells[i].2 := by simp only at hh; simp [vtx, hh]
  cases b with
  | false =>
    left
    simp only [opp, Bool.not_false, e1, e2]
    exact ⟨pt_get hlt.1, pt_get hlt.2⟩
  | true =>
    right
    simp only [opp, Bool.not_true, e1, e2]
    exact ⟨pt_get hlt.1, pt_get hlt.2⟩

/-- Edges of half-edges. -/
def edgesOf (edges : List Edge) (hs : List EV) : List Edge := hs.filterMap fun h => edges[h.1]?

theorem runSegs_succ (n k : Nat) : runSegs n (k + 1) = (n, n + 1) :: runSegs (n + 1) k := by
  unfold runSegs
  rw [List.range_succ_eq_map, List.map_cons, List.map_map]
  simp only [Nat.add_zero, List.cons.injEq, true_and]
  apply List.map_congr_left
  intro i _
  simp only [Function.comp, Nat.succ_eq_add_one, Prod.mk.injEq]
  omega

theorem verts_cons (edges : List Edge) (h g : EV) (hs : List EV) :
    (⟨h :: g :: hs, false⟩ : Ln).verts edges = vtx edges h :: (⟨g :: hs, false⟩ : Ln).verts edges := by
  simp [Ln.verts, List.getLast?_cons_cons]

theorem verts_head (edges : List Edge) (g : EV) (hs : List EV) :
    ∃ r, (⟨g :: hs, false⟩ : Ln).verts edges = vtx edges g :: r := ⟨_, rfl⟩

theorem openSegs {m : Mesh Edge D} (ok : EdgesOk m) (hs : List EV) (hne : hs ≠ []) (hc : Chain m.cells hs)
    (hlt : ∀ h ∈ hs, h.1 < m.cells.length) (Q R : List (Pt D)) :
    List.Forall₂ (SameSeg (Q ++ ((⟨hs, false⟩ : Ln).verts m.cells).map (fun v => Pt.round (ptAt m v)) ++ R) (m.points.map Pt.round))
      (runSegs Q.length (((⟨hs, false⟩ : Ln).verts m.cells).length - 1)) (edgesOf m.cells hs) := by
  induction hs generalizing Q with
  | nil => exact absurd rfl hne
  | cons h hs ih =>
    have hh := hlt h (by simp)
    cases hs with
    | nil =>
      have ev : (⟨[h], false⟩ : Ln).verts m.cells = [vtx m.cells h, vtx m.cells (opp h)] := rfl
      rw [ev]
      have ee : edgesOf m.cells [h] = [m.cells[h.1]] := by simp [edgesOf, hh]
      rw [ee]
      refine List.Forall₂.cons ?_ List.Forall₂.nil
      refine sameSeg_half ok hh ?_ ?_
      · simp
      · simp
    | cons g hs =>
      obtain ⟨hx, hc'⟩ := hc
      rw [verts_cons]
      have ee : edgesOf m.cells (h :: g :: hs) = m.cells[h.1] :: edgesOf m.cells (g :: hs) := by
        rw [edgesOf, List.filterMap_cons, List.getElem?_eq_getElem hh]; rfl
      have hp : 0 < ((⟨g :: hs, false⟩ : Ln).verts m.cells).length := verts_length_pos (by simp)
      obtain ⟨k, hk⟩ : ∃ k, ((⟨g :: hs, false⟩ : Ln).verts m.cells).length = k + 1 := ⟨_, (Nat.succ_pred_eq_of_pos hp).symm⟩
      have e1 : (vtx m.cells h :: (⟨g :: hs, false⟩ : Ln).verts m.cells).length - 1 = k + 1 := by simp [hk]
      rw [e1, runSegs_succ, ee]
      refine List.Forall₂.cons ?_ ?_
      · obtain ⟨r, hr⟩ := verts_head m.cells g hs
        refine sameSeg_half ok hh ?_ ?_
        · simp
        · rw [hr, hx]; simp
      · have := ih (by simp) hc' (fun x hx => hlt x (by simp [hx])) (Q ++ [Pt.round (ptAt m (vtx m.cells h))])
        rw [hk] at this
        simpa using this

theorem edgesOf_append (edges : List Edge) (a b : List EV) : edgesOf edges (a ++ b) = edgesOf edges a ++ edgesOf edges b := by
  simp [edgesOf]

theorem openSegs_all {m : Mesh Edge D} (ok : EdgesOk m) (ls : List Ln) (ho : ∀ l ∈ ls, l.closed = false)
    (hc : ∀ l ∈ ls, Chain m.cells l.hs ∧ l.hs ≠ []) (hlt : ∀ l ∈ ls, ∀ h ∈ l.hs, h.1 < m.cells.length) (Q : List (Pt D)) :
    List.Forall₂ (SameSeg (Q ++ (ls.flatMap (Ln.verts m.cells)).map (fun v => Pt.round (ptAt m v))) (m.points.map Pt.round))
      (lnsSegs m.cells Q.length ls) (edgesOf m.cells (ls.flatMap Ln.hs)) := by
  induction ls generalizing Q with
  | nil => exact List.Forall₂.nil
  | cons l ls ih =>
    obtain ⟨hs, c⟩ := l
    have : c = false := ho ⟨hs, c⟩ (by simp)
    subst this
    rw [lnsSegs, List.flatMap_cons, List.flatMap_cons, edgesOf_append, List.map_append, ← List.append_assoc]
    refine List.rel_append ?_ ?_
    · have := openSegs ok hs (hc ⟨hs, false⟩ (by simp)).2 (hc ⟨hs, false⟩ (by simp)).1 (hlt ⟨hs, false⟩ (by simp)) Q
        ((ls.flatMap (Ln.verts m.cells)).map (fun v => Pt.round (ptAt m v)))
      simpa [lnSegs] using this
    · have := ih (fun l hl => ho l (by simp [hl])) (fun l hl => hc l (by simp [hl])) (fun l hl => hlt l (by simp [hl]))
        (Q ++ ((⟨hs, false⟩ : Ln).verts m.cells).map (fun v => Pt.round (ptAt m v)))
      simpa using this

theorem edgesOf_perm {edges : List Edge} {hs : List EV} (h : (hs.map Prod.fst).Perm (List.range edges.length)) :
    (edgesOf edges hs).Perm edges := by
  have h1 : edgesOf edges hs = (hs.map Prod.fst).filterMap fun i => edges[i]? := by
    simp [edgesOf, List.filterMap_map]
  have h2 : (List.range edges.length).filterMap (fun i => edges[i]?) = edges := by
    have : ∀ l : List Edge, (List.range l.length).filterMap (fun i => l[i]?) = l := by
      intro l
      induction l with
      | nil => rfl
      | cons a l ih =>
        rw [List.length_cons, List.range_succ_eq_map, List.filterMap_cons]
        simp only [List.getElem?_cons_zero, List.filterMap_map, Function.comp_def, Nat.succ_eq_add_one, List.getElem?_cons_succ, ih]
    exact this edges
  rw [h1]
  exact (h.filterMap _).trans (by rw [h2])

/-- Segments of open lines use only vertices of the file. -/
theorem lnsSegs_lt {edges : List Edge} {n : Nat} {ls : List Ln} (ho : ∀ l ∈ ls, l.closed = false) :
    ∀ e ∈ lnsSegs edges n ls, e.1 < n + nbVerts edges ls ∧ e.2 < n + nbVerts edges ls := by
  induction ls generalizing n with
  | nil => simp [lnsSegs]
  | cons l ls ih =>
    intro e he
    have hb : nbVerts edges (l :: ls) = (l.verts edges).length + nbVerts edges ls := by simp [nbVerts]
    rw [lnsSegs] at he
    rcases List.mem_append.1 he with he | he
    · simp only [lnSegs, ho l (by simp), Bool.false_eq_true, if_false, List.append_nil, runSegs, List.mem_map, List.mem_range] at he
      obtain ⟨i, hi, rfl⟩ := he
      simp only
      omega
    · have := ih (n := n + (l.verts edges).length) (fun a ha => ho a (by simp [ha])) e he
      omega

theorem nbVerts_le {edges : List Edge} {ls : List Ln} (hne : ∀ l ∈ ls, l.hs ≠ []) :
    nbVerts edges ls ≤ 2 * (ls.flatMap fun l => l.hs.map Prod.fst).length := by
  induction ls with
  | nil => simp [nbVerts]
  | cons l ls ih =>
    have h1 : nbVerts edges (l :: ls) = (l.verts edges).length + nbVerts edges ls := by simp [nbVerts]
    have h2 : (l.verts edges).length ≤ l.hs.length + 1 := by
      simp only [Ln.verts, List.length_append, List.length_map]
      split
      · simp
      · cases l.hs.getLast? <;> simp
    have h3 := List.length_pos_iff.2 (hne l (by simp))
    have := ih fun a ha => hne a (by simp [ha])
    rw [List.flatMap_cons, List.length_append, List.length_map]
    omega

end Verif.GocadWalk
