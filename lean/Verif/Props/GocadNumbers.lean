import Verif.Props.GocadBody
import Verif.Lemmas.LsoModel

/-!
# Numbers of vertices

GOCAD gives each vertex a number; the numbers of an object are different, but need not follow each other: a program that deletes vertices keeps the
numbers of the others.
-/

namespace Verif.Props.GocadNumbers

open Verif Verif.Gocad Verif.GocadMesh Verif.GocadBody

variable {D : Type} [Num D]

/-- The vertex lines of the points from the rank `k` on, the vertex of rank `i` with the number `num i`. -/
def vertices (num : Nat → Nat) : Nat → List (Pt D) → File
  | _, [] => []
  | k, p :: ps => (cs!"VRTX" ++ spaced (showNat (num k) :: p.toks)) :: vertices num (k + 1) ps

/-- A triangle, by the numbers of its vertices. -/
def triangle (num : Nat → Nat) (t : Tri) : Str := cs!"TRGL" ++ spaced [showNat (num t.1), showNat (num t.2.1), showNat (num t.2.2)]

/-- A segment, by the numbers of its vertices. -/
def segment (num : Nat → Nat) (e : Edge) : Str := cs!"SEG" ++ spaced [showNat (num e.1), showNat (num e.2)]

/-- A surface whose vertices have the given numbers. -/
def surface (num : Nat → Nat) (ps : List (Pt D)) (ts : List Tri) : File :=
  [cs!"GOCAD TSurf 1"] ++ writeHeader none ++ [cs!"TFACE"] ++ vertices num 0 ps ++ ts.map (triangle num) ++ [cs!"END"]

/-- A curve whose vertices have the given numbers. -/
def curve (num : Nat → Nat) (ps : List (Pt D)) (es : List Edge) : File :=
  [cs!"GOCAD PLine 1"] ++ writeHeader none ++ [cs!"ILINE"] ++ vertices num 0 ps ++ es.map (segment num) ++ [cs!"END"]

/-- The vertices of the triangles are among the first `n`. -/
def TrianglesOf (n : Nat) (ts : List Tri) : Prop := ∀ t ∈ ts, t.1 < n ∧ t.2.1 < n ∧ t.2.2 < n

/-- The vertices of the edges are among the first `n`. -/
def EdgesOf (n : Nat) (es : List Edge) : Prop := ∀ e ∈ es, e.1 < n ∧ e.2 < n

/-- The first `n` vertices have different numbers of 32 bits. -/
def Numbering (n : Nat) (num : Nat → Nat) : Prop := (∀ i, i < n → num i < W) ∧ ∀ i j, i < n → j < n → num i = num j → i = j

/-- The vertex that the reader takes for the one of rank `i`. -/
def taken (num : Nat → Nat) (i : Nat) : Nat := sub32 (num i) (num 0)

theorem vrtx_split [LawfulNum D] (n : Nat) (p : Pt D) : split (cs!"VRTX" ++ spaced (showNat n :: p.toks)) = cs!"VRTX" :: showNat n :: (p.toks ++ []) := by
  rw [List.append_nil]
  apply split_kw_spaced (by decide)
  intro t ht
  rcases List.mem_cons.1 ht with rfl | ht
  · exact isTok_showNat _
  · exact isTok_toks p t ht

/-! ## Surfaces -/

theorem ts_vertices [LawfulNum D] (num : Nat → Nat) (rest : File) : ∀ (ps : List (Pt D)) (k : Nat) (ts : TSurf D), ts.points ≠ [] → ts.props.esizes = [] →
    readTfacesLoop ts (vertices num k ps ++ rest) = readTfacesLoop { ts with points := ts.points ++ ps.map (pointOf ts.crs.zPos) } rest
  | [], _, ts, _, _ => by simp [vertices]
  | p :: ps, k, ts, h, he => by
    have hemp : ts.points.isEmpty = false := by cases h' : ts.points <;> simp_all
    rw [vertices, List.cons_append, readTfacesLoop, vrtx_split]
    simp only
    rw [if_neg (by decide), tsLine, if_pos (Or.inl rfl)]
    unfold tsVrtx
    rw [pointOf_toks, he]
    simp only [hemp, Bool.false_eq_true, if_false, Res.pure_eq, Res.ok_bind, readProperties]
    rw [ts_vertices num rest ps (k + 1) _ (by simp) (by simpa using he)]
    simp

theorem ts_triangles (num : Nat → Nat) (rest : File) : ∀ (l : List Tri) (ts : TSurf D), (∀ t ∈ l, num t.1 < W ∧ num t.2.1 < W ∧ num t.2.2 < W) →
    readTfacesLoop ts (l.map (triangle num) ++ rest) =
      readTfacesLoop { ts with triangles := ts.triangles ++ l.map fun t => (sub32 (num t.1) ts.offset, sub32 (num t.2.1) ts.offset, sub32 (num t.2.2) ts.offset) } rest
  | [], ts, _ => by simp
  | t :: l, ts, h => by
    have hs : split (triangle num t) = [cs!"TRGL", showNat (num t.1), showNat (num t.2.1), showNat (num t.2.2)] :=
      split_kw_spaced (by decide) (by intro t ht; simp at ht; rcases ht with rfl | rfl | rfl <;> exact isTok_showNat _)
    obtain ⟨ha, hb, hc⟩ := h t (by simp)
    rw [List.map_cons, List.cons_append, readTfacesLoop, hs]
    simp only
    rw [if_neg (by decide), tsLine, if_neg (by decide), if_neg (by decide), if_pos rfl]
    simp only [tsTrgl, Res.index_cons_succ, Res.index_cons_zero, Res.ok_bind, readIndex_showNat ha, readIndex_showNat hb, readIndex_showNat hc, Res.pure_eq]
    rw [ts_triangles num rest l _ fun x hx => h x (by simp [hx])]
    simp

/-- The object read. -/
def tsurfOf (num : Nat → Nat) (ps : List (Pt D)) (ts : List Tri) : TSurf D where
  offset := num 0
  points := ps.map (pointOf true)
  triangles := ts.map fun t => (taken num t.1, taken num t.2.1, taken num t.2.2)

/-- What the surface is read as: the numbers of the vertices after the first one are not looked at. -/
theorem surface_load [LawfulNum D] {num : Nat → Nat} {ps : List (Pt D)} {ts : List Tri} (h0 : ps ≠ []) (hn : ∀ i, i < ps.length → num i < W) (ht : TrianglesOf ps.length ts) :
    loadTS (surface num ps ts) = Res.mapM' (createTriangle ps.length) (ts.map fun t => (taken num t.1, taken num t.2.1, taken num t.2.2)) >>= fun tris =>
      .ok { points := ps.map (pointOf true), cells := tris } := by
  obtain ⟨p, ps, rfl⟩ := List.exists_cons_of_ne_nil h0
  have hw : ∀ t ∈ ts, num t.1 < W ∧ num t.2.1 < W ∧ num t.2.2 < W := fun t h => ⟨hn _ (ht t h).1, hn _ (ht t h).2.1, hn _ (ht t h).2.2⟩
  have e : surface num (p :: ps) ts = cs!"GOCAD TSurf 1" :: (writeHeader none ++ (cs!"TFACE" :: ((cs!"VRTX" ++ spaced (showNat (num 0) :: p.toks)) ::
      (vertices num 1 ps ++ (ts.map (triangle num) ++ [cs!"END"]))))) := by
    simp [surface, vertices]
  have hread : readTSurf (surface num (p :: ps) ts) = .ok (some (tsClose (tsurfOf num (p :: ps) ts), [])) := by
    rw [e]
    unfold readTSurf
    rw [gotoKeyword?, if_pos (by rfl)]
    simp only
    rw [readHeader_good (by simp), Res.ok_bind]
    simp only
    have hc : ∀ f : File, readCrs (cs!"TFACE" :: f) = .ok ({}, cs!"TFACE" :: f) := fun _ => rfl
    have hp : ∀ f : File, (readPropHeader [] (cs!"TFACE" :: f) : Res (PropHeader D × File)) = .ok ({}, cs!"TFACE" :: f) := fun _ => rfl
    rw [hc, Res.ok_bind]
    simp only
    rw [hp, Res.ok_bind]
    unfold readTfaces
    simp only
    rw [gotoKeyword_here (by rfl), Res.ok_bind]
    simp only
    rw [readTfacesLoop, vrtx_split]
    simp only
    rw [if_neg (by decide), tsLine, if_pos (Or.inl rfl)]
    unfold tsVrtx
    rw [pointOf_toks]
    simp only [List.isEmpty_nil, if_true, Res.index_cons_succ, Res.index_cons_zero, Res.ok_bind, readIndex_showNat (hn 0 (by simp)), readProperties, Res.pure_eq]
    rw [ts_vertices num _ ps 1 _ (by simp) rfl, ts_triangles num _ ts _ hw]
    rfl
  obtain ⟨k, hk⟩ : ∃ k, (surface num (p :: ps) ts).length = k + 1 := ⟨_, by rw [e]; rfl⟩
  unfold loadTS
  rw [hk, loadTSLoop, hread]
  simp only [Res.ok_bind, buildSurface, tsClose, tsurfOf, List.nil_append, List.length_nil, if_true, List.length_map, Res.bind_assoc']
  cases Res.mapM' (createTriangle (p :: ps).length) (ts.map fun t => (taken num t.1, taken num t.2.1, taken num t.2.2)) with
  | ok tris => exact loadTSLoop_nil (n := k) _
  | throw => rfl
  | ub => rfl
  | diverge => rfl

theorem created {n : Nat} : ∀ (ts us : List Tri), Res.mapM' (createTriangle n) ts = .ok us ↔ us = ts ∧ TrianglesOf n ts
  | [], us => by simp [TrianglesOf, eq_comm]
  | t :: ts, us => by
    rw [Res.mapM'_cons]
    simp only [Res.bind_eq_ok, created ts, createTriangle]
    constructor
    · rintro ⟨a, ha, b, ⟨rfl, hb⟩, h⟩
      split at ha
      · rename_i h1
        cases ha
        cases h
        refine ⟨rfl, fun x hx => ?_⟩
        rcases List.mem_cons.1 hx with rfl | hx
        · exact h1
        · exact hb x hx
      · cases ha
    · rintro ⟨rfl, h⟩
      exact ⟨t, by rw [if_pos (h t (by simp))], ts, ⟨rfl, fun x hx => h x (by simp [hx])⟩, rfl⟩

theorem taken_iff {num : Nat → Nat} {n i : Nat} (hn : n ≤ W) (h0 : num 0 < W) (hi : i < n) (h : num i < W) : taken num i = i ↔ num i = (num 0 + i) % W := by
  unfold taken sub32
  unfold W at *
  omega

/-- A surface whose vertices have any different numbers. -/
theorem surface_numbers_iff [LawfulNum D] {num : Nat → Nat} {ps : List (Pt D)} {ts : List Tri} (h0 : ps ≠ []) (hw : ps.length ≤ W)
    (hn : Numbering ps.length num) (ht : TrianglesOf ps.length ts) :
    (∃ m : Loaded Tri D, loadTS (surface num ps ts) = .ok m ∧ m.cells = ts) ↔
      ∀ t ∈ ts, ∀ v ∈ [t.1, t.2.1, t.2.2], num v = (num 0 + v) % W := by
  have hpos := List.length_pos_iff.2 h0
  have key : ∀ v, v < ps.length → (taken num v = v ↔ num v = (num 0 + v) % W) := fun v hv => taken_iff hw (hn.1 0 hpos) hv (hn.1 v hv)
  rw [surface_load h0 hn.1 ht]
  constructor
  · rintro ⟨m, hm, hc⟩ t htm v hv
    obtain ⟨us, h1, h2⟩ := Res.bind_eq_ok.1 hm
    cases h2
    obtain ⟨e, -⟩ := (created _ _).1 h1
    simp only at hc
    rw [hc] at e
    have e : ts.map id = ts.map fun t => (taken num t.1, taken num t.2.1, taken num t.2.2) := by rw [List.map_id]; exact e
    have := List.map_inj_left.1 e t htm
    obtain ⟨a, b, c⟩ := t
    simp only [id, Prod.mk.injEq] at this
    obtain ⟨h1, h2, h3⟩ := this
    have := ht _ htm
    simp only [List.mem_cons, List.not_mem_nil, or_false] at hv
    rcases hv with rfl | rfl | rfl
    · exact (key _ this.1).1 h1.symm
    · exact (key _ this.2.1).1 h2.symm
    · exact (key _ this.2.2).1 h3.symm
  · intro h
    have e : (ts.map fun t => (taken num t.1, taken num t.2.1, taken num t.2.2)) = ts := by
      refine (List.map_congr_left (g := id) fun t htm => ?_).trans (List.map_id _)
      have hr := ht t htm
      obtain ⟨a, b, c⟩ := t
      simp only [id, Prod.mk.injEq]
      exact ⟨(key _ hr.1).2 (h _ htm _ (by simp)), (key _ hr.2.1).2 (h _ htm _ (by simp)), (key _ hr.2.2).2 (h _ htm _ (by simp))⟩
    rw [e, (created ts ts).2 ⟨rfl, ht⟩, Res.ok_bind]
    exact ⟨_, rfl, rfl⟩

/-! ## Curves -/

theorem pl_vertices [LawfulNum D] (num : Nat → Nat) (rest : File) : ∀ (ps : List (Pt D)) (k : Nat) (ec : ECurve D), ec.points ≠ [] →
    readIlinesLoop ec (vertices num k ps ++ rest) = readIlinesLoop { ec with points := ec.points ++ ps.map (pointOf ec.crs.zPos) } rest
  | [], _, ec, _ => by simp [vertices]
  | p :: ps, k, ec, h => by
    have hemp : ec.points.isEmpty = false := by cases h' : ec.points <;> simp_all
    rw [vertices, List.cons_append, readIlinesLoop, vrtx_split]
    simp only
    rw [if_neg (by decide), plLine, if_pos (Or.inl rfl)]
    unfold plVrtx
    rw [pointOf_toks]
    simp only [hemp, Bool.false_eq_true, if_false, Res.pure_eq, Res.ok_bind]
    rw [pl_vertices num rest ps (k + 1) _ (by simp)]
    simp

theorem pl_segments (num : Nat → Nat) (rest : File) : ∀ (l : List Edge) (ec : ECurve D), (∀ e ∈ l, num e.1 < W ∧ num e.2 < W) →
    readIlinesLoop ec (l.map (segment num) ++ rest) =
      readIlinesLoop { ec with edges := ec.edges ++ l.map fun e => (sub32 (num e.1) ec.offset, sub32 (num e.2) ec.offset) } rest
  | [], ec, _ => by simp
  | e :: l, ec, h => by
    have hs : split (segment num e) = [cs!"SEG", showNat (num e.1), showNat (num e.2)] :=
      split_kw_spaced (by decide) (by intro t ht; simp at ht; rcases ht with rfl | rfl <;> exact isTok_showNat _)
    obtain ⟨ha, hb⟩ := h e (by simp)
    rw [List.map_cons, List.cons_append, readIlinesLoop, hs]
    simp only
    rw [if_neg (by decide), plLine, if_neg (by decide), if_pos rfl]
    simp only [plSeg, Res.index_cons_succ, Res.index_cons_zero, Res.ok_bind, readIndex_showNat ha, readIndex_showNat hb, Res.pure_eq]
    rw [pl_segments num rest l _ fun x hx => h x (by simp [hx])]
    simp

/-- The curve read. -/
def ecurveOf (num : Nat → Nat) (ps : List (Pt D)) (es : List Edge) : ECurve D where
  offset := num 0
  points := ps.map (pointOf true)
  edges := es.map fun e => (taken num e.1, taken num e.2)

/-- What the curve is read as. -/
theorem curve_load [LawfulNum D] {num : Nat → Nat} {ps : List (Pt D)} {es : List Edge} (h0 : ps ≠ []) (hn : ∀ i, i < ps.length → num i < W) (he : EdgesOf ps.length es) :
    loadPL (curve num ps es) = buildCurve {} (ecurveOf num ps es) := by
  obtain ⟨p, ps, rfl⟩ := List.exists_cons_of_ne_nil h0
  have hw : ∀ e ∈ es, num e.1 < W ∧ num e.2 < W := fun t h => ⟨hn _ (he t h).1, hn _ (he t h).2⟩
  have e : curve num (p :: ps) es = cs!"GOCAD PLine 1" :: (writeHeader none ++ (cs!"ILINE" :: ((cs!"VRTX" ++ spaced (showNat (num 0) :: p.toks)) ::
      (vertices num 1 ps ++ (es.map (segment num) ++ [cs!"END"]))))) := by
    simp [curve, vertices]
  have hread : readECurve (curve num (p :: ps) es) = .ok (some (ecurveOf num (p :: ps) es, [])) := by
    rw [e]
    unfold readECurve
    rw [gotoKeyword?, if_pos (by rfl)]
    simp only
    rw [readHeader_good (by simp), Res.ok_bind]
    simp only
    have hc : ∀ f : File, readCrs (cs!"ILINE" :: f) = .ok ({}, cs!"ILINE" :: f) := fun _ => rfl
    rw [hc, Res.ok_bind]
    unfold readIlines
    simp only
    rw [gotoKeyword_here (by rfl), Res.ok_bind]
    simp only
    rw [readIlinesLoop, vrtx_split]
    simp only
    rw [if_neg (by decide), plLine, if_pos (Or.inl rfl)]
    unfold plVrtx
    rw [pointOf_toks]
    simp only [List.isEmpty_nil, if_true, Res.index_cons_succ, Res.index_cons_zero, Res.ok_bind, readIndex_showNat (hn 0 (by simp)), Res.pure_eq]
    rw [pl_vertices num _ ps 1 _ (by simp), pl_segments num _ es _ hw]
    rfl
  obtain ⟨k, hk⟩ : ∃ k, (curve num (p :: ps) es).length = k + 1 := ⟨_, by rw [e]; rfl⟩
  unfold loadPL
  rw [hk, loadPLLoop, hread]
  simp only [Res.ok_bind]
  cases buildCurve ({} : Loaded Edge D) (ecurveOf num (p :: ps) es) with
  | ok m => rfl
  | throw => rfl
  | ub => rfl
  | diverge => rfl

theorem joined {n : Nat} : ∀ (es us : List Edge), Res.mapM' (fun e => if e.1 < n ∧ e.2 < n then .ok e else .ub) es = .ok us ↔ us = es ∧ EdgesOf n es
  | [], us => by simp [EdgesOf, eq_comm]
  | e :: es, us => by
    rw [Res.mapM'_cons]
    simp only [Res.bind_eq_ok, joined es]
    constructor
    · rintro ⟨a, ha, b, ⟨rfl, hb⟩, h⟩
      split at ha
      · rename_i h1
        cases ha
        cases h
        refine ⟨rfl, fun x hx => ?_⟩
        rcases List.mem_cons.1 hx with rfl | hx
        · exact h1
        · exact hb x hx
      · cases ha
    · rintro ⟨rfl, h⟩
      exact ⟨e, by rw [if_pos (h e (by simp))], es, ⟨rfl, fun x hx => h x (by simp [hx])⟩, rfl⟩

/-- A curve whose vertices have any different numbers. -/
theorem curve_numbers_iff [LawfulNum D] {num : Nat → Nat} {ps : List (Pt D)} {es : List Edge} (h0 : ps ≠ []) (hw : ps.length ≤ W)
    (hn : Numbering ps.length num) (he : EdgesOf ps.length es) :
    (∃ m : Loaded Edge D, loadPL (curve num ps es) = .ok m ∧ m.cells = es) ↔ ∀ e ∈ es, ∀ v ∈ [e.1, e.2], num v = (num 0 + v) % W := by
  have hpos := List.length_pos_iff.2 h0
  have key : ∀ v, v < ps.length → (taken num v = v ↔ num v = (num 0 + v) % W) := fun v hv => taken_iff hw (hn.1 0 hpos) hv (hn.1 v hv)
  have hb : buildCurve ({} : Loaded Edge D) (ecurveOf num ps es) =
      Res.mapM' (fun e => if e.1 < ps.length ∧ e.2 < ps.length then .ok e else .ub) (es.map fun e => (taken num e.1, taken num e.2)) >>= fun l =>
        .ok { points := ps.map (pointOf true), cells := l } := by
    have ht : ∀ v, shift32 0 (taken num v) = taken num v := fun v => by
      unfold shift32 taken sub32
      unfold W
      omega
    unfold buildCurve ecurveOf
    simp only [List.nil_append, List.length_map, List.length_nil, Res.pure_eq]
    congr 1
    induction es with
    | nil => rfl
    | cons e es ih =>
      rw [List.map_cons, Res.mapM'_cons, Res.mapM'_cons, ih fun x hx => he x (by simp [hx])]
      simp only [ht]
  rw [curve_load h0 hn.1 he, hb]
  constructor
  · rintro ⟨m, hm, hc⟩ e hem v hv
    obtain ⟨us, h1, h2⟩ := Res.bind_eq_ok.1 hm
    cases h2
    obtain ⟨x, -⟩ := (joined _ _).1 h1
    simp only at hc
    rw [hc] at x
    have x : es.map id = es.map fun t => (taken num t.1, taken num t.2) := by rw [List.map_id]; exact x
    have := List.map_inj_left.1 x e hem
    simp only [id, Prod.ext_iff] at this
    obtain ⟨a, b⟩ := he e hem
    simp only [List.mem_cons, List.not_mem_nil, or_false] at hv
    rcases hv with rfl | rfl
    · exact (key _ a).1 this.1.symm
    · exact (key _ b).1 this.2.symm
  · intro h
    have x : es.map (fun t => (taken num t.1, taken num t.2)) = es := by
      refine (List.map_congr_left (g := id) ?_).trans (List.map_id es)
      refine fun e hem => ?_
      obtain ⟨a, b⟩ := he e hem
      have h1 := (key _ a).2 (h e hem _ (by simp))
      have h2 := (key _ b).2 (h e hem _ (by simp))
      simp [h1, h2]
    rw [x, (joined es es).2 ⟨rfl, he⟩]
    exact ⟨_, rfl, rfl⟩

/-! ## The property -/

/-- **The property**: whichever numbers the vertices of an object have, its triangles and its segments join the vertices that have the numbers
written in them. -/
def AnyNumbers : Prop :=
  (∀ (num : Nat → Nat) (ps : List (Pt Int)) (ts : List Tri), ps ≠ [] → ps.length ≤ W → Numbering ps.length num → TrianglesOf ps.length ts →
    ∃ m : Loaded Tri Int, loadTS (surface num ps ts) = .ok m ∧ m.cells = ts) ∧
  ∀ (num : Nat → Nat) (ps : List (Pt Int)) (es : List Edge), ps ≠ [] → ps.length ≤ W → Numbering ps.length num → EdgesOf ps.length es →
    ∃ m : Loaded Edge Int, loadPL (curve num ps es) = .ok m ∧ m.cells = es

/-- Vertices numbered from any number on, one after the other. -/
theorem surface_numbers_partial [LawfulNum D] {first : Nat} {ps : List (Pt D)} {ts : List Tri} (h0 : ps ≠ []) (hw : first + ps.length ≤ W) (ht : TrianglesOf ps.length ts) :
    loadTS (surface (first + ·) ps ts) = .ok { points := ps.map (pointOf true), cells := ts } := by
  have hpos := List.length_pos_iff.2 h0
  rw [surface_load h0 (fun i hi => by show first + i < W; omega) ht]
  have x : ts.map (fun t => (taken (first + ·) t.1, taken (first + ·) t.2.1, taken (first + ·) t.2.2)) = ts := by
    refine (List.map_congr_left (g := id) ?_).trans (List.map_id ts)
    refine fun t htm => ?_
    obtain ⟨a, b, c⟩ := ht t htm
    have key : ∀ v, v < ps.length → taken (first + ·) v = v := fun v hv => by
      show (first + v + W - (first + 0)) % W = v
      unfold W at *
      omega
    rw [key _ a, key _ b, key _ c]
    rfl
  rw [x, (created ts ts).2 ⟨rfl, ht⟩]
  rfl

/-- The same for curves. -/
theorem curve_numbers_partial [LawfulNum D] {first : Nat} {ps : List (Pt D)} {es : List Edge} (h0 : ps ≠ []) (hw : first + ps.length ≤ W) (he : EdgesOf ps.length es) :
    ∃ m : Loaded Edge D, loadPL (curve (first + ·) ps es) = .ok m ∧ m.cells = es := by
  refine (curve_numbers_iff h0 (by omega) ⟨fun i hi => by show first + i < W; omega, fun i j _ _ h => by simpa using h⟩ he).2 fun e hem v hv => ?_
  have hv : v < ps.length := by
    obtain ⟨a, b⟩ := he e hem
    simp only [List.mem_cons, List.not_mem_nil, or_false] at hv
    rcases hv with rfl | rfl <;> assumption
  show first + v = (first + 0 + v) % W
  rw [Nat.mod_eq_of_lt (by omega)]
  omega

/-- The numbers of three vertices left out of four: the vertex 3 is missing. -/
def gap (i : Nat) : Nat := if i = 2 then 4 else i + 1

/-- The numbers of four vertices in another order: 1, 3, 2, 4. -/
def swapped (i : Nat) : Nat := if i = 1 then 3 else if i = 2 then 2 else i + 1

def three : List (Pt Int) := [⟨0, 0, 0⟩, ⟨1, 0, 0⟩, ⟨0, 1, 0⟩]

def four : List (Pt Int) := three ++ [⟨1, 1, 0⟩]

/-- Test on one file: with the numbers 1, 2 and 4, the triangle has a vertex that the surface does not have. -/
theorem gap_undefined : loadTS (D := Int) (surface gap three [(0, 1, 2)]) = .ub := by decide +kernel

/-- Test on one file: with the numbers 1, 2 and 4, so has the segment. -/
theorem gap_undefined_curve : loadPL (D := Int) (curve gap three [(1, 2)]) = .ub := by decide +kernel

/-- Test on one file: with the numbers 1, 3, 2 and 4, another triangle is made. -/
theorem swapped_wrong : (loadTS (D := Int) (surface swapped four [(0, 1, 3)])).bind (fun m => .ok m.cells) = .ok [(0, 2, 3)] := by decide +kernel

theorem swapped_numbering : Numbering 4 swapped := by
  constructor
  · decide
  · have : ∀ i, i < 4 → ∀ j, j < 4 → swapped i = swapped j → i = j := by decide
    exact fun i j hi hj => this i hi j hj

theorem gap_numbering : Numbering 3 gap := by
  constructor
  · decide
  · have : ∀ i, i < 3 → ∀ j, j < 3 → gap i = gap j → i = j := by decide
    exact fun i j hi hj => this i hi j hj

/-- A gap anywhere before a vertex in use is enough: the last vertex of a surface whose numbers increase with a gap gets out of the surface. -/
theorem gap_always [LawfulNum D] {num : Nat → Nat} {ps : List (Pt D)} {ts : List Tri} (h0 : ps ≠ []) (hn : ∀ i, i < ps.length → num i < W) (ht : TrianglesOf ps.length ts)
    (h : ∃ t ∈ ts, ∃ v ∈ [t.1, t.2.1, t.2.2], num 0 + ps.length ≤ num v) : loadTS (D := D) (surface num ps ts) = .ub := by
  obtain ⟨t, htm, v, hv, hb⟩ := h
  have hpos := List.length_pos_iff.2 h0
  have hvl : v < ps.length := by
    obtain ⟨a, b, c⟩ := ht t htm
    simp only [List.mem_cons, List.not_mem_nil, or_false] at hv
    rcases hv with rfl | rfl | rfl <;> assumption
  have hnv := hn v hvl
  have h0' := hn 0 hpos
  have hout : ¬ taken num v < ps.length := by
    unfold taken sub32
    unfold W at *
    omega
  rw [surface_load h0 hn ht]
  have : ∀ l : List Tri, t ∈ l → Res.mapM' (createTriangle ps.length) (l.map fun t => (taken num t.1, taken num t.2.1, taken num t.2.2)) = .ub := by
    intro l hl
    induction l with
    | nil => simp at hl
    | cons a l ih =>
      rw [List.map_cons, Res.mapM'_cons]
      rcases List.mem_cons.1 hl with rfl | hl
      · have hx : ¬ (taken num t.1 < ps.length ∧ taken num t.2.1 < ps.length ∧ taken num t.2.2 < ps.length) := by
          simp only [List.mem_cons, List.not_mem_nil, or_false] at hv
          exact fun ⟨a, b, c⟩ => hout (by rcases hv with rfl | rfl | rfl <;> assumption)
        rw [createTriangle, if_neg hx]
        rfl
      · rw [ih hl, createTriangle]
        split <;> rfl
  rw [this ts htm]
  rfl

theorem not_anyNumbers : ¬ AnyNumbers := by
  intro h
  obtain ⟨m, hm, -⟩ := h.1 gap three [(0, 1, 2)] (by decide) (by decide) gap_numbering (by simp [TrianglesOf, three])
  rw [gap_undefined] at hm
  cases hm

/-! ## Solids -/

/-- A `.lso` file whose vertices have the given numbers; `rest` has the tetrahedra and the rest of the file. -/
def solid (num : Nat → Nat) (ps : List (Pt D)) (rest : File) : File := [cs!"GOCAD LightTSolid 1"] ++ writeHeader none ++ vertices num 0 ps ++ rest

theorem lso_vertex [LawfulNum D] (z : Bool) (es : List Nat) (s : Lso.Solid D) (n n' : Nat) (p : Pt D) :
    Lso.readVertex z es s (cs!"VRTX" ++ spaced (showNat n :: p.toks)) = Lso.readVertex z es s (cs!"VRTX" ++ spaced (showNat n' :: p.toks)) := by
  unfold Lso.readVertex
  rw [vrtx_split, vrtx_split]
  rw [if_neg (by simp [startsWith, List.isPrefixOf]), if_neg (by simp [startsWith, List.isPrefixOf])]
  unfold readPoint
  simp only [Res.index_cons_succ, List.drop_succ_cons]

theorem lso_vertices [LawfulNum D] (z : Bool) (es : List Nat) (num num' : Nat → Nat) (rest : File) : ∀ (ps : List (Pt D)) (k : Nat) (s : Lso.Solid D),
    Lso.readVerticesLoop z es s (vertices num k ps ++ rest) = Lso.readVerticesLoop z es s (vertices num' k ps ++ rest)
  | [], _, _ => rfl
  | p :: ps, k, s => by
    have hc : ∀ n, contains cs!"VRTX" (cs!"VRTX" ++ spaced (showNat n :: p.toks)) = true := fun n => Lso.contains_prefix _ _
    show Lso.readVerticesLoop z es s ((cs!"VRTX" ++ spaced (showNat (num k) :: p.toks)) :: (vertices num (k + 1) ps ++ rest)) =
      Lso.readVerticesLoop z es s ((cs!"VRTX" ++ spaced (showNat (num' k) :: p.toks)) :: (vertices num' (k + 1) ps ++ rest))
    rw [Lso.readVerticesLoop, Lso.readVerticesLoop, if_pos (hc _), if_pos (hc _), lso_vertex z es s (num k) (num' k) p]
    congr 1
    funext s
    exact lso_vertices z es num num' rest ps (k + 1) s

/-- The numbers of the vertices of a solid are not looked at: whatever they are, the file loads as the same model, although the tetrahedra and the
triangles of the rest of the file refer to them. -/
theorem solid_numbers_ignored [LawfulNum D] (num num' : Nat → Nat) {ps : List (Pt D)} (h0 : ps ≠ []) (rest : File) :
    Lso.loadLso (D := D) (solid num ps rest) = Lso.loadLso (solid num' ps rest) := by
  obtain ⟨p, ps, rfl⟩ := List.exists_cons_of_ne_nil h0
  have e : ∀ num : Nat → Nat, solid num (p :: ps) rest = cs!"GOCAD LightTSolid 1" :: (writeHeader none ++ ((cs!"VRTX" ++ spaced (showNat (num 0) :: p.toks)) ::
      (vertices num 1 ps ++ rest))) := fun num => by simp [solid, vertices]
  have hc : ∀ (n : Nat) (f : File), readCrs ((cs!"VRTX" ++ spaced (showNat n :: p.toks)) :: f) = .ok ({}, (cs!"VRTX" ++ spaced (showNat n :: p.toks)) :: f) := fun _ _ => rfl
  have hp : ∀ (n : Nat) (f : File), (readPropHeader [] ((cs!"VRTX" ++ spaced (showNat n :: p.toks)) :: f) : Res (PropHeader D × File)) =
      .ok ({}, (cs!"VRTX" ++ spaced (showNat n :: p.toks)) :: f) := fun _ _ => rfl
  have ht : ∀ (n : Nat) (f : File), (readPropHeader cs!"TETRA_" ((cs!"VRTX" ++ spaced (showNat n :: p.toks)) :: f) : Res (PropHeader D × File)) =
      .ok ({}, (cs!"VRTX" ++ spaced (showNat n :: p.toks)) :: f) := fun _ _ => rfl
  unfold Lso.loadLso
  rw [e num, e num', gotoKeyword_here (by rfl), gotoKeyword_here (by rfl)]
  simp only [Res.ok_bind]
  rw [readHeader_good (by simp), readHeader_good (by simp)]
  simp only [Res.ok_bind, hc, hp, ht]
  have hg : ∀ n (f : File), gotoKeywords [cs!"VRTX", cs!"PVRTX"] ((cs!"VRTX" ++ spaced (showNat n :: p.toks)) :: f) = .ok (cs!"VRTX" ++ spaced (showNat n :: p.toks), f) := fun n f => by rfl
  unfold Lso.readVertices
  simp only [hg, Res.ok_bind]
  simp only [lso_vertex _ _ _ (num 0) (num' 0) p, lso_vertices _ _ num num' rest ps 1]

/-- What follows the vertices of a solid of one tetrahedron. -/
def oneTetra (num : Nat → Nat) (t : Nat × Nat × Nat × Nat) : File :=
  [cs!"TETRA" ++ spaced [showNat (num t.1), showNat (num t.2.1), showNat (num t.2.2.1), showNat (num t.2.2.2)], cs!"# CTETRA r1 + top", cs!"MODEL", cs!"END"]

/-- Test on one file: vertices numbered from 0, as some programs write them: the tetrahedron has a vertex that the solid does not have. -/
theorem solid_from_zero : Lso.loadLso (D := Int) (solid (fun i => i) (three ++ [⟨0, 0, 1⟩]) (oneTetra (fun i => i) (0, 1, 2, 3))) = .ub := by decide +kernel

/-- Test on one file: with the numbers 1, 3, 2, 4 and 5 another tetrahedron is made. -/
theorem solid_swapped : (Lso.loadLso (D := Int) (solid swapped (four ++ [⟨0, 0, 1⟩]) (oneTetra swapped (0, 1, 3, 4)))).bind (fun m => .ok m.solid.tetras) = .ok [[0, 2, 3, 4]] := by
  decide +kernel

/-! Non-vacuity. -/

example : surface gap three [(0, 1, 2)] =
    [cs!"GOCAD TSurf 1", cs!"HEADER {", cs!"}", cs!"TFACE", cs!"VRTX 1 0 0 0", cs!"VRTX 2 1 0 0", cs!"VRTX 4 0 1 0", cs!"TRGL 1 2 4", cs!"END"] := by
  decide +kernel

example : (loadTS (D := Int) (surface (7 + ·) three [(0, 1, 2)])).bind (fun m => .ok m.cells) = .ok [(0, 1, 2)] := by decide +kernel

end Verif.Props.GocadNumbers
