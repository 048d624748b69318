import Verif.Model.Ml
import Verif.Lemmas.GocadMesh

/-! Lemmas on the TSurfs of `.ml` files: what is read from the surfaces written. -/

set_option linter.unusedSectionVars false

namespace Verif.Ml

open Verif Verif.Gocad Verif.GocadMesh

variable {D : Type} [Num D]

/-- A triangle of a surface whose first vertex is number `v`. -/
def moved (v : Nat) (t : Tri) : Tri := (v + t.1, v + t.2.1, v + t.2.2)

/-- The triangles of surfaces one after the other. -/
def trisFrom : Nat → List (Surface D) → List Tri
  | _, [] => []
  | v, s :: ss => s.triangles.map (moved v) ++ trisFrom (v + s.points.length) ss

/-- Running sums. -/
def sums : Nat → List Nat → List Nat
  | _, [] => []
  | a, x :: xs => (a + x) :: sums (a + x) xs

/-- Number of vertices of surfaces. -/
def nbPoints (ss : List (Surface D)) : Nat := (ss.map fun s => s.points.length).sum

/-- What is read from the TSurf of surfaces. -/
def dataOf (name : Str) (ss : List (Surface D)) : TSurf D where
  offset := 1
  name := some name
  points := ss.flatMap fun s => s.points.map Pt.round
  triangles := trisFrom 0 ss
  tfaceVertices := 0 :: sums 0 (ss.map fun s => s.points.length)
  tfaceTriangles := 0 :: sums 0 (ss.map fun s => s.triangles.length)
  bstones := (lineStarts 0 ss).map Prod.fst
  borders := lineStarts 0 ss

/-- A surface whose triangles and line starts have vertices of the surface, and with at least one triangle. -/
structure GoodSurface (s : Surface D) : Prop where
  some : s.triangles ≠ []
  tris : ∀ t ∈ s.triangles, t.1 < s.points.length ∧ t.2.1 < s.points.length ∧ t.2.2 < s.points.length
  starts : ∀ e ∈ s.starts, e.1 < s.points.length ∧ e.2 < s.points.length

theorem GoodSurface.points {s : Surface D} (h : GoodSurface s) : s.points ≠ [] := by
  intro e
  cases ht : s.triangles with
  | nil => exact h.some ht
  | cons t l =>
    have := (h.tris t (by rw [ht]; simp)).1
    rw [e] at this
    simp at this

theorem vrtx_text (v : Nat) (pts : List (Pt D)) (k : Nat) :
    (List.range' k pts.length).zipWith (fun w (p : Pt D) => cs!"VRTX" ++ spaced (showNat (1 + v + w) :: p.toks)) pts =
      vrtxLinesFrom 1 cs!"VRTX" [] (v + k) pts := by
  induction pts generalizing k with
  | nil => simp [vrtxLinesFrom]
  | cons p ps ih =>
    rw [List.length_cons, List.range'_succ, List.zipWith_cons_cons, vrtxLinesFrom, ih]
    have e : vrtxLine cs!"VRTX" ([] : List (Attr D)) (1 + (v + k)) (v + k) p = cs!"VRTX" ++ spaced (showNat (1 + v + k) :: p.toks) := by
      unfold vrtxLine
      simp [valueToks, Nat.add_assoc]
    rw [e]
    rfl

theorem writeSurface_eq (v : Nat) (s : Surface D) :
    writeSurface (1 + v) s = cs!"TFACE" :: (vrtxLinesFrom 1 cs!"VRTX" [] v s.points ++ (s.triangles.map (moved (1 + v))).map trglLine) := by
  unfold writeSurface
  have h := vrtx_text v s.points 0
  rw [Nat.add_zero, ← List.range_eq_range'] at h
  rw [h, List.map_map]
  rfl

/-- Reading the vertices and triangles of one surface. -/
theorem read_surface [LawfulNum D] (ts : TSurf D) (s : Surface D) (hs : GoodSurface s) {v : Nat} (hz : ts.crs.zPos = true) (he : ts.props.esizes = [])
    (ha : ts.attrs = []) (hl : ts.points.length = v) (ho : v = 0 ∨ ts.offset = 1) (hW : 1 + v + s.points.length ≤ W) (rest : File) :
    readTfacesLoop ts (vrtxLinesFrom 1 cs!"VRTX" [] v s.points ++ ((s.triangles.map (moved (1 + v))).map trglLine ++ rest)) =
      readTfacesLoop { ts with
        offset := 1
        points := ts.points ++ s.points.map Pt.round
        triangles := ts.triangles ++ s.triangles.map (moved v) } rest := by
  rw [readTfacesLoop_vrtxs (Or.inl rfl) [] 1 s.points v ts hz (by simpa using he) (by simpa using ha) hl ho hW, readTfacesLoop_trgls]
  · have hne : s.points.isEmpty = false := by simpa using hs.points
    have hm : (s.triangles.map (moved (1 + v))).map (fun t => (sub32 t.1 1, sub32 t.2.1 1, sub32 t.2.2 1)) = s.triangles.map (moved v) := by
      rw [List.map_map]
      apply List.map_congr_left
      intro t ht
      have h := hs.tris t ht
      simp only [Function.comp_apply, moved]
      rw [sub32_of_le (by omega) (by omega), sub32_of_le (by omega) (by omega), sub32_of_le (by omega) (by omega)]
      simp only [Prod.mk.injEq]
      omega
    simp only [hne, Bool.false_eq_true, if_false, hm, List.map_nil, ha]
  · intro t ht
    obtain ⟨t', ht', rfl⟩ := List.mem_map.1 ht
    have h := hs.tris t' ht'
    simp only [moved]
    omega

/-- Reading surfaces after the first one. -/
theorem read_surfaces [LawfulNum D] : ∀ (ss : List (Surface D)) (ts : TSurf D) (v : Nat), (∀ s ∈ ss, GoodSurface s) →
    ts.crs.zPos = true → ts.props.esizes = [] → ts.attrs = [] → ts.points.length = v → ts.offset = 1 →
    1 + v + nbPoints ss ≤ W → ∀ rest : File,
    readTfacesLoop ts (writeSurfaces (1 + v) ss ++ rest) =
      readTfacesLoop { ts with
        points := ts.points ++ ss.flatMap (fun s => s.points.map Pt.round)
        triangles := ts.triangles ++ trisFrom v ss
        tfaceVertices := ts.tfaceVertices ++ (v :: sums v (ss.map fun s => s.points.length)).dropLast
        tfaceTriangles := ts.tfaceTriangles ++ (ts.triangles.length :: sums ts.triangles.length (ss.map fun s => s.triangles.length)).dropLast } rest
  | [], ts, v, _, hz, he, ha, hl, ho, hW, rest => by
    simp [writeSurfaces, trisFrom, sums]
  | s :: ss, ts, v, hg, hz, he, ha, hl, ho, hW, rest => by
    have hW' : 1 + v + s.points.length + nbPoints ss ≤ W := by
      have e : nbPoints (s :: ss) = s.points.length + nbPoints ss := by simp [nbPoints]
      omega
    have e1 : writeSurfaces (1 + v) (s :: ss) ++ rest = cs!"TFACE" :: (vrtxLinesFrom 1 cs!"VRTX" [] v s.points ++
        ((s.triangles.map (moved (1 + v))).map trglLine ++ (writeSurfaces (1 + (v + s.points.length)) ss ++ rest))) := by
      rw [writeSurfaces, writeSurface_eq, Nat.add_assoc]
      simp
    have e2 : ∀ r, readTfacesLoop ts (cs!"TFACE" :: r) = readTfacesLoop (tsClose ts) r := fun r => rfl
    rw [e1, e2, read_surface (tsClose ts) s (hg s List.mem_cons_self) hz he ha hl (Or.inr ho) (by omega)]
    refine (read_surfaces ss _ (v + s.points.length) ?_ ?_ ?_ ?_ ?_ ?_ ?_ rest).trans ?_
    · exact fun s h => hg s (List.mem_cons_of_mem _ h)
    · exact hz
    · exact he
    · exact ha
    · simp [tsClose, hl]
    · rfl
    · omega
    · simp [tsClose, trisFrom, sums, hl, ho]

theorem read_bstones (ts : TSurf D) (l : List (Nat × Nat)) (h : ∀ e ∈ l, e.1 < W) (rest : File) :
    readTfacesLoop ts (l.map (fun e => cs!"BSTONE" ++ spaced [showNat e.1]) ++ rest) =
      readTfacesLoop { ts with bstones := ts.bstones ++ l.map fun e => sub32 e.1 ts.offset } rest := by
  induction l generalizing ts with
  | nil => simp
  | cons e l ih =>
    have hs : split (cs!"BSTONE" ++ spaced [showNat e.1]) = [cs!"BSTONE", showNat e.1] := by
      rw [split_kw_spaced (by decide) (by simp [isTok_showNat])]
    have h1 : readTfacesLoop ts ((cs!"BSTONE" ++ spaced [showNat e.1]) :: (l.map (fun e => cs!"BSTONE" ++ spaced [showNat e.1]) ++ rest)) =
        readTfacesLoop { ts with bstones := ts.bstones ++ [sub32 e.1 ts.offset] } (l.map (fun e => cs!"BSTONE" ++ spaced [showNat e.1]) ++ rest) := by
      rw [readTfacesLoop, hs]
      simp [tsLine, tsBstone, readIndex_showNat (h e (by simp))]
    rw [List.map_cons, List.cons_append, h1, ih _ (fun x hx => h x (by simp [hx]))]
    simp

theorem read_borders (l : List (Nat × Nat)) : ∀ (ts : TSurf D) (n : Nat), (∀ e ∈ l, e.1 < W ∧ e.2 < W) → ∀ rest : File,
    readTfacesLoop ts (borderLines n l ++ rest) =
      readTfacesLoop { ts with borders := ts.borders ++ l.map fun e => (sub32 e.1 ts.offset, sub32 e.2 ts.offset) } rest := by
  induction l with
  | nil => intro ts n _ rest; simp [borderLines]
  | cons e l ih =>
    intro ts n h rest
    have hs : split (cs!"BORDER" ++ spaced [showNat n, showNat e.1, showNat e.2]) = [cs!"BORDER", showNat n, showNat e.1, showNat e.2] := by
      rw [split_kw_spaced (by decide) (by simp [isTok_showNat])]
    have he := h e (by simp)
    have h1 : ∀ r, readTfacesLoop ts ((cs!"BORDER" ++ spaced [showNat n, showNat e.1, showNat e.2]) :: r) =
        readTfacesLoop { ts with borders := ts.borders ++ [(sub32 e.1 ts.offset, sub32 e.2 ts.offset)] } r := by
      intro r
      rw [readTfacesLoop, hs]
      simp [tsLine, tsBorder, readIndex_showNat he.1, readIndex_showNat he.2]
    rw [borderLines, List.cons_append, h1, ih _ _ (fun x hx => h x (by simp [hx]))]
    simp

theorem lineStarts_shift : ∀ (ss : List (Surface D)) (v : Nat),
    (lineStarts (1 + v) ss) = (lineStarts v ss).map fun e => (e.1 + 1, e.2 + 1)
  | [], v => rfl
  | s :: ss, v => by
    rw [lineStarts, lineStarts, List.map_append, ← lineStarts_shift ss, List.map_map, Nat.add_assoc]
    congr 1
    apply List.map_congr_left
    intro e _
    simp only [Function.comp_apply]
    congr 1 <;> omega

theorem lineStarts_lt : ∀ (ss : List (Surface D)) (v : Nat), (∀ s ∈ ss, GoodSurface s) →
    ∀ e ∈ lineStarts v ss, e.1 < v + nbPoints ss ∧ e.2 < v + nbPoints ss
  | [], v, _, e, he => by simp [lineStarts] at he
  | s :: ss, v, hg, e, he => by
    have e1 : nbPoints (s :: ss) = s.points.length + nbPoints ss := by simp [nbPoints]
    rw [lineStarts] at he
    rcases List.mem_append.1 he with he | he
    · obtain ⟨e', he', rfl⟩ := List.mem_map.1 he
      have := (hg s List.mem_cons_self).starts e' he'
      simp only
      omega
    · have := lineStarts_lt ss (v + s.points.length) (fun s h => hg s (List.mem_cons_of_mem _ h)) e he
      omega

/-- What is read from a TSurf written, whatever its name. -/
theorem readTSurf_named [LawfulNum D] (kind name : Str) {ss : List (Surface D)} (hne : ss ≠ [])
    (hg : ∀ s ∈ ss, GoodSurface s) (hW : 1 + nbPoints ss ≤ W) (rest : File) :
    readTSurf (writeTSurf kind name ss ++ rest) = .ok (some (dataOf (readName (split name)) ss, rest)) := by
  obtain ⟨s, ss', rfl⟩ : ∃ s ss', ss = s :: ss' := by
    cases ss with
    | nil => exact absurd rfl hne
    | cons s ss' => exact ⟨s, ss', rfl⟩
  have hnb : nbPoints (s :: ss') = s.points.length + nbPoints ss' := by simp [nbPoints]
  have e : writeTSurf kind name (s :: ss') ++ rest = cs!"GOCAD TSurf 1" :: (writeHeader (some name) ++ (writeCrs {} ++
      ([cs!"GEOLOGICAL_FEATURE" ++ spaced [name], cs!"GEOLOGICAL_TYPE" ++ spaced [kind]] ++ (cs!"TFACE" ::
      (vrtxLinesFrom 1 cs!"VRTX" [] 0 s.points ++ ((s.triangles.map (moved (1 + 0))).map trglLine ++ (writeSurfaces (1 + s.points.length) ss' ++
      ((lineStarts 1 (s :: ss')).map (fun e => cs!"BSTONE" ++ spaced [showNat e.1]) ++
      (borderLines (1 + nbPoints (s :: ss')) (lineStarts 1 (s :: ss')) ++ (cs!"END" :: rest)))))))))) := by
    have e' : writeSurfaces 1 (s :: ss') = writeSurface (1 + 0) s ++ writeSurfaces (1 + s.points.length) ss' := rfl
    unfold writeTSurf
    rw [e', writeSurface_eq]
    simp [nbPoints]
  rw [e]
  unfold readTSurf
  rw [gotoKeyword?, if_pos (by rfl)]
  simp only
  rw [readHeader_writeHeader, Res.ok_bind]
  simp only [Option.map_some]
  rw [readCrs_default, Res.ok_bind]
  simp only
  have hprop : ∀ r : File, (readPropHeader [] ([cs!"GEOLOGICAL_FEATURE" ++ spaced [name], cs!"GEOLOGICAL_TYPE" ++ spaced [kind]] ++ r) : Res (PropHeader D × File)) =
      .ok ({}, [cs!"GEOLOGICAL_FEATURE" ++ spaced [name], cs!"GEOLOGICAL_TYPE" ++ spaced [kind]] ++ r) := fun r => rfl
  rw [hprop, Res.ok_bind]
  simp only
  unfold readTfaces
  rw [gotoKeyword_skip (by
    intro l hl
    simp only [List.mem_cons, List.not_mem_nil, or_false] at hl
    rcases hl with rfl | rfl <;> rfl), gotoKeyword_here (by rfl), Res.ok_bind]
  simp only
  rw [read_surface { name := some (readName (split name)), attrs := List.map (fun _ : Str => []) [] } s (hg s List.mem_cons_self) (v := 0) rfl rfl rfl rfl (Or.inl rfl) (by omega)]
  have h2 := read_surfaces ss' ({ ({ name := some (readName (split name)), attrs := List.map (fun _ : Str => []) [] } : TSurf D) with
        offset := 1
        points := ([] : List (Pt D)) ++ s.points.map Pt.round
        triangles := [] ++ s.triangles.map (moved 0) }) s.points.length (fun s h => hg s (List.mem_cons_of_mem _ h)) rfl rfl rfl (by simp) rfl (by omega)
  simp only at h2
  rw [h2]
  have hst := lineStarts_lt (s :: ss') 1 hg
  rw [read_bstones _ _ (fun e he => by have := hst e he; omega)]
  rw [read_borders _ _ _ (fun e he => by have := hst e he; omega)]
  have hend : ∀ ts : TSurf D, readTfacesLoop ts (cs!"END" :: rest) = .ok (tsClose ts, rest) := fun _ => rfl
  rw [hend, Res.ok_bind]
  have hshift := lineStarts_shift (s :: ss') 0
  rw [Nat.add_zero] at hshift
  have hst0 := lineStarts_lt (s :: ss') 0 hg
  have hb : (lineStarts 1 (s :: ss')).map (fun e => (sub32 e.1 1, sub32 e.2 1)) = lineStarts 0 (s :: ss') := by
    rw [hshift, List.map_map]
    conv => rhs; rw [← List.map_id (lineStarts 0 (s :: ss'))]
    apply List.map_congr_left
    intro e he
    have := hst0 e he
    simp only [Function.comp_apply, id]
    rw [sub32_of_le (by omega) (by omega), sub32_of_le (by omega) (by omega)]
    simp
  have hb1 : (lineStarts 1 (s :: ss')).map (fun e => sub32 e.1 1) = (lineStarts 0 (s :: ss')).map Prod.fst := by
    rw [← hb, List.map_map]
    rfl
  simp only [tsClose, Res.pure_eq, Res.ok.injEq, Option.some.injEq, Prod.mk.injEq, and_true]
  unfold dataOf
  have last : ∀ (xs : List Nat) (a : Nat), (a :: sums a xs).dropLast ++ [a + xs.sum] = a :: sums a xs := by
    intro xs
    induction xs with
    | nil => intro a; simp [sums]
    | cons x xs ih =>
      intro a
      rw [sums, List.dropLast_cons_of_ne_nil (by simp), List.cons_append]
      congr 1
      have := ih (a + x)
      rw [List.sum_cons, ← Nat.add_assoc]
      exact this
  have hpl : ((s :: ss').flatMap fun s => s.points.map Pt.round).length = s.points.length + (ss'.map fun s => s.points.length).sum := by
    simp [List.length_flatMap]
  have htl : ∀ (l : List (Surface D)) (v : Nat), (trisFrom v l).length = (l.map fun s => s.triangles.length).sum := by
    intro l
    induction l with
    | nil => intro v; rfl
    | cons a l ih => intro v; simp [trisFrom, ih]
  have hp := last (ss'.map fun s => s.points.length) s.points.length
  have ht := last (ss'.map fun s => s.triangles.length) s.triangles.length
  simp only [List.nil_append, hb, hb1, List.length_append, List.length_map]
  simp only [htl, List.length_flatMap, List.length_map, List.append_assoc]
  have m0 : s.triangles.map (moved 0) ++ trisFrom s.points.length ss' = trisFrom 0 (s :: ss') := by simp [trisFrom]
  rw [hp, ht, m0]
  simp [sums]

/-- What is read from a TSurf written. -/
theorem readTSurf_written [LawfulNum D] {kind name : Str} (hn : GoodObjectName name) {ss : List (Surface D)} (hne : ss ≠ [])
    (hg : ∀ s ∈ ss, GoodSurface s) (hW : 1 + nbPoints ss ≤ W) (rest : File) :
    readTSurf (writeTSurf kind name ss ++ rest) = .ok (some (dataOf name ss, rest)) := by
  rw [readTSurf_named kind name hne hg hW, readName_split hn]

/-! ### The surfaces built -/

theorem slice_append {A : Type} (a b c : List A) : slice (a ++ (b ++ c)) a.length (a.length + b.length) = b := by
  unfold slice
  rw [List.drop_left, Nat.add_sub_cancel_left, List.take_left]

theorem sums_getElem? (xs ys : List Nat) (a : Nat) : (a :: sums a (xs ++ ys))[xs.length]? = some (a + xs.sum) := by
  induction xs generalizing a with
  | nil => simp
  | cons x xs ih =>
    rw [List.cons_append, sums, List.length_cons, List.getElem?_cons_succ, ih, List.sum_cons, Nat.add_assoc]

theorem trisFrom_append (a b : List (Surface D)) (v : Nat) : trisFrom v (a ++ b) = trisFrom v a ++ trisFrom (v + nbPoints a) b := by
  induction a generalizing v with
  | nil => simp [trisFrom, nbPoints]
  | cons s a ih =>
    have e : nbPoints (s :: a) = s.points.length + nbPoints a := by simp [nbPoints]
    rw [List.cons_append, trisFrom, trisFrom, ih, e, List.append_assoc, Nat.add_assoc]

theorem trisFrom_length (l : List (Surface D)) (v : Nat) : (trisFrom v l).length = (l.map fun s => s.triangles.length).sum := by
  induction l generalizing v with
  | nil => rfl
  | cons a l ih => simp [trisFrom, ih]

theorem buildFace_dataOf (name : Str) (pre : List (Surface D)) (s : Surface D) (post : List (Surface D)) (hg : GoodSurface s)
    (hW : 1 + nbPoints (pre ++ s :: post) ≤ W) (r : Nat) :
    buildFace (dataOf name (pre ++ s :: post)) pre.length r = .ok (r, s.points.map Pt.round, s.triangles) := by
  have hnb : nbPoints (pre ++ s :: post) = nbPoints pre + s.points.length + nbPoints post := by simp [nbPoints]; omega
  have v1 : (dataOf name (pre ++ s :: post)).tfaceVertices[pre.length]? = some (nbPoints pre) := by
    have := sums_getElem? (pre.map fun s => s.points.length) ((s :: post).map fun s => s.points.length) 0
    rw [← List.map_append, List.length_map, Nat.zero_add] at this
    exact this
  have v2 : (dataOf name (pre ++ s :: post)).tfaceVertices[pre.length + 1]? = some (nbPoints pre + s.points.length) := by
    have := sums_getElem? ((pre ++ [s]).map fun s => s.points.length) (post.map fun s => s.points.length) 0
    rw [← List.map_append, List.length_map, Nat.zero_add] at this
    simp only [List.append_assoc, List.singleton_append, List.length_append, List.length_singleton] at this
    rw [dataOf, this]
    simp [nbPoints]
  have t1 : (dataOf name (pre ++ s :: post)).tfaceTriangles[pre.length]? = some ((pre.map fun s => s.triangles.length).sum) := by
    have := sums_getElem? (pre.map fun s => s.triangles.length) ((s :: post).map fun s => s.triangles.length) 0
    rw [← List.map_append, List.length_map, Nat.zero_add] at this
    exact this
  have t2 : (dataOf name (pre ++ s :: post)).tfaceTriangles[pre.length + 1]? = some ((pre.map fun s => s.triangles.length).sum + s.triangles.length) := by
    have := sums_getElem? ((pre ++ [s]).map fun s => s.triangles.length) (post.map fun s => s.triangles.length) 0
    rw [← List.map_append, List.length_map, Nat.zero_add] at this
    simp only [List.append_assoc, List.singleton_append, List.length_append, List.length_singleton] at this
    rw [dataOf, this]
    simp
  have pts : slice (dataOf name (pre ++ s :: post)).points (nbPoints pre) (nbPoints pre + s.points.length) = s.points.map Pt.round := by
    have e : (dataOf name (pre ++ s :: post)).points = (pre.flatMap fun s => s.points.map Pt.round) ++ (s.points.map Pt.round ++
        post.flatMap fun s => s.points.map Pt.round) := by simp [dataOf]
    have l : (pre.flatMap fun s => s.points.map Pt.round).length = nbPoints pre := by simp [List.length_flatMap, nbPoints]
    have := slice_append (pre.flatMap fun s => s.points.map Pt.round) (s.points.map Pt.round) (post.flatMap fun s => s.points.map Pt.round)
    rw [l, List.length_map] at this
    rw [e, this]
  have trs : slice (dataOf name (pre ++ s :: post)).triangles (pre.map fun s => s.triangles.length).sum
      ((pre.map fun s => s.triangles.length).sum + s.triangles.length) = s.triangles.map (moved (nbPoints pre)) := by
    have e : (dataOf name (pre ++ s :: post)).triangles = trisFrom 0 pre ++ (s.triangles.map (moved (nbPoints pre)) ++
        trisFrom (nbPoints pre + s.points.length) post) := by
      simp [dataOf, trisFrom_append, trisFrom]
    have := slice_append (trisFrom 0 pre) (s.triangles.map (moved (nbPoints pre))) (trisFrom (nbPoints pre + s.points.length) post)
    rw [trisFrom_length, List.length_map] at this
    rw [e, this]
  unfold buildFace
  rw [Res.index_eq_ok.2 v1, Res.index_eq_ok.2 v2, Res.index_eq_ok.2 t1, Res.index_eq_ok.2 t2]
  simp only [Res.ok_bind]
  rw [pts, trs]
  have hm : Res.mapM' (fun t : Tri => createTriangle (s.points.map Pt.round).length
      (sub32 t.1 (nbPoints pre), sub32 t.2.1 (nbPoints pre), sub32 t.2.2 (nbPoints pre))) (s.triangles.map (moved (nbPoints pre))) = .ok s.triangles := by
    have h := hg.tris
    generalize s.triangles = l at h
    induction l with
    | nil => rfl
    | cons t l ih =>
      rw [List.map_cons, Res.mapM'_cons, ih (fun t ht => h t (List.mem_cons_of_mem _ ht))]
      have ht := h t List.mem_cons_self
      simp only [moved]
      rw [sub32_of_le (by omega) (by omega), sub32_of_le (by omega) (by omega), sub32_of_le (by omega) (by omega)]
      simp only [Nat.add_sub_cancel_left, createTriangle, List.length_map]
      rw [if_pos ht]
      rfl
  rw [hm]
  rfl

theorem buildFaces_dataOf (name : Str) (all : List (Surface D)) (hg : ∀ s ∈ all, GoodSurface s) (hW : 1 + nbPoints all ≤ W) :
    ∀ (post pre : List (Surface D)) (rs : List Nat), all = pre ++ post → rs.length = post.length →
      buildFaces (dataOf name all) pre.length rs = .ok (rs.zipWith (fun r s => (r, s.points.map Pt.round, s.triangles)) post)
  | [], pre, rs, _, hr => by
    have : rs = [] := List.length_eq_zero_iff.1 hr
    subst this
    rfl
  | s :: post, pre, rs, he, hr => by
    cases rs with
    | nil => simp at hr
    | cons r rs =>
      rw [buildFaces]
      have h1 : buildFace (dataOf name all) pre.length r = .ok (r, s.points.map Pt.round, s.triangles) := by
        subst he
        exact buildFace_dataOf name pre s post (hg s (by simp)) hW r
      have h2 := buildFaces_dataOf name all hg hW post (pre ++ [s]) rs (by simp [he]) (by simpa using hr)
      rw [List.length_append, List.length_singleton] at h2
      rw [h1, h2]
      rfl

end Verif.Ml
