import Verif.Model.LsoWhole
import Verif.Props.LsoInspect
import Verif.Props.LsoLines

/-!
# Structural models loaded from `.lso` files, with their corners and lines
-/

namespace Verif.Props.LsoWhole

open Verif Verif.Gocad Verif.GocadMesh Verif.Lso Verif.LsoLines Verif.LsoWhole Verif.Props.LsoInspect Verif.Props.LsoLines Res

variable {D : Type} [Num D]

/-! ## The vertices of the surfaces are vertices of the solid -/

/-- As many unique vertices as points. -/
def Numbered (s : Solid D) : Prop := s.ids.length = s.points.length

theorem numbered_vertex {z : Bool} {es : List Nat} {s s' : Solid D} {l : Str} (h : Numbered s) (hr : readVertex z es s l = .ok s') : Numbered s' := by
  unfold Numbered at *
  unfold readVertex at hr
  dsimp only at hr
  split at hr
  · obtain ⟨_, -, hr⟩ := bind_eq_ok.1 hr
    obtain ⟨_, -, hr⟩ := bind_eq_ok.1 hr
    obtain ⟨_, -, hr⟩ := bind_eq_ok.1 hr
    obtain ⟨_, -, hr⟩ := bind_eq_ok.1 hr
    split at hr
    · cases hr; simp [h]
    · cases hr
  · obtain ⟨_, -, hr⟩ := bind_eq_ok.1 hr
    obtain ⟨_, -, hr⟩ := bind_eq_ok.1 hr
    cases hr; simp [h]

theorem numbered_loop {z : Bool} {es : List Nat} (f : File) : ∀ {s : Solid D} {r : Solid D × Str × File}, Numbered s →
    readVerticesLoop z es s f = .ok r → Numbered r.1 := by
  induction f with
  | nil => intro s r h hr; cases hr; exact h
  | cons l ls ih =>
    intro s r h hr
    rw [readVerticesLoop] at hr
    split at hr
    · obtain ⟨s1, h1, hr⟩ := bind_eq_ok.1 hr
      exact ih (numbered_vertex h h1) hr
    · cases hr; exact h

theorem numbered_vertices {z : Bool} {es : List Nat} {f : File} {s : Solid D} {r : Solid D × Str × File} (h : Numbered s)
    (hr : readVertices z es s f = .ok r) : Numbered r.1 := by
  unfold readVertices at hr
  obtain ⟨⟨l, f⟩, -, hr⟩ := bind_eq_ok.1 hr
  obtain ⟨s1, h1, hr⟩ := bind_eq_ok.1 hr
  exact numbered_loop f (numbered_vertex h h1) hr

theorem tetra_same {es : List Nat} {s s' : Solid D} {l l2 : Str} (hr : readTetra es s l l2 = .ok s') : s'.ids = s.ids ∧ s'.points = s.points := by
  unfold readTetra at hr
  obtain ⟨_, -, hr⟩ := bind_eq_ok.1 hr
  obtain ⟨_, -, hr⟩ := bind_eq_ok.1 hr
  obtain ⟨_, -, hr⟩ := bind_eq_ok.1 hr
  obtain ⟨_, -, hr⟩ := bind_eq_ok.1 hr
  cases hr
  exact ⟨rfl, rfl⟩

theorem tetras_same (es : List Nat) : ∀ (s : Solid D) (l : Str) (f : File) {r : Solid D × Str × File}, readTetras es s l f = .ok r →
    r.1.ids = s.ids ∧ r.1.points = s.points
  | s, l, [], r, hr => by
    rw [readTetras] at hr
    obtain ⟨s1, h1, hr⟩ := bind_eq_ok.1 hr
    cases hr
    exact tetra_same h1
  | s, l, [l2], r, hr => by
    rw [readTetras] at hr
    obtain ⟨s1, h1, hr⟩ := bind_eq_ok.1 hr
    cases hr
    exact tetra_same h1
  | s, l, l2 :: l3 :: ls, r, hr => by
    rw [readTetras] at hr
    obtain ⟨s1, h1, hr⟩ := bind_eq_ok.1 hr
    obtain ⟨e1, e2⟩ := tetra_same h1
    split at hr
    · obtain ⟨e3, e4⟩ := tetras_same es s1 l3 ls hr
      exact ⟨e3.trans e1, e4.trans e2⟩
    · cases hr; exact ⟨e1, e2⟩

/-- The surfaces read so far: their vertices exist and their cells are triangles. -/
structure Known (s : Solid D) (st : Lso.RState) : Prop where
  vertices : ∀ r ∈ st.surfaces, ∀ v ∈ r.vertices, v < s.points.length
  three : ∀ r ∈ st.surfaces, ∀ t ∈ r.triangles, t.length = 3

theorem localCell_mem (t : List Nat) : ∀ (used : List Nat) {v : Nat}, v ∈ (localCell used t).1 → v ∈ used ∨ v ∈ t := by
  induction t with
  | nil => intro used v h; exact .inl h
  | cons a t ih =>
    intro used v h
    simp only [localCell] at h
    rcases ih _ h with h | h
    · unfold localVertex at h
      split at h
      · exact .inl h
      · rcases List.mem_append.1 h with h | h
        · exact .inl h
        · exact .inr (by simp_all)
    · exact .inr (List.mem_cons_of_mem _ h)

theorem localCell_length (t : List Nat) : ∀ used : List Nat, (localCell used t).2.length = t.length := by
  induction t with
  | nil => intro used; rfl
  | cons a t ih => intro used; simp [localCell, ih]

omit [Num D] in
theorem known_points {t : List Nat} {points : List (Pt D)} {ps : List (Pt D)} (h : List.Forall₂ (fun v p => Res.index points v = .ok p) t ps) :
    ∀ v ∈ t, v < points.length := by
  induction h with
  | nil => intro v hv; simp at hv
  | cons hp _ ih =>
    intro v hv
    rcases List.mem_cons.1 hv with rfl | hv
    · exact (List.getElem?_eq_some_iff.1 (index_eq_ok.1 hp)).1
    · exact ih v hv

omit [Num D] in
theorem known_triangle {s : Solid D} {st st' : Lso.RState} {l : Str} (hi : Known s st) (h : readTriangle s st l = .ok st') : Known s st' := by
  unfold readTriangle at h
  obtain ⟨t, ht, h⟩ := bind_eq_ok.1 h
  obtain ⟨ps, hps, h⟩ := bind_eq_ok.1 h
  obtain ⟨fs, hfs, h⟩ := bind_eq_ok.1 h
  have hlt := known_points (mapM'_inv hps)
  cases hr : st.surfaces.reverse with
  | nil => rw [hr] at h; cases h
  | cons cur before =>
    rw [hr] at h
    have hs : st.surfaces = before.reverse ++ [cur] := by
      have := congrArg List.reverse hr
      rwa [List.reverse_reverse, List.reverse_cons] at this
    cases h
    refine ⟨?_, ?_⟩
    · intro r hr v hv
      rcases List.mem_append.1 hr with hr | hr
      · exact hi.vertices r (by rw [hs]; exact List.mem_append_left _ hr) v hv
      · rw [List.mem_singleton.1 hr] at hv
        rcases localCell_mem _ _ hv with hv | hv
        · exact hi.vertices cur (by rw [hs]; simp) v hv
        · exact hlt v hv
    · intro r hr c hc
      rcases List.mem_append.1 hr with hr | hr
      · exact hi.three r (by rw [hs]; exact List.mem_append_left _ hr) c hc
      · rw [List.mem_singleton.1 hr] at hc
        rcases List.mem_append.1 hc with hc | hc
        · exact hi.three cur (by rw [hs]; simp) c hc
        · rw [List.mem_singleton.1 hc, localCell_length]
          obtain ⟨_, _, _, rfl⟩ := readCell_three ht
          rfl

omit [Num D] in
theorem known_surfaceLine {s : Solid D} {st : Lso.RState} {l : Str} (hi : Known s st) {r : Lso.RState × Mode} (h : surfaceLine st l = .ok (some r)) :
    Known s r.1 := by
  unfold surfaceLine at h
  split at h
  · obtain ⟨_, -, h⟩ := bind_eq_ok.1 h
    cases h
    exact ⟨hi.vertices, hi.three⟩
  · cases h

omit [Num D] in
theorem known_faceLine {s : Solid D} {st : Lso.RState} {l : Str} (hi : Known s st) {r : Lso.RState × Mode} (h : faceLine st l = .ok (some r)) :
    Known s r.1 := by
  unfold faceLine at h
  split at h
  · cases h
    refine ⟨?_, ?_⟩ <;> intro r hr <;> rcases List.mem_append.1 hr with hr | hr
    · exact hi.vertices r hr
    · rw [List.mem_singleton.1 hr]; simp
    · exact hi.three r hr
    · rw [List.mem_singleton.1 hr]; simp
  · exact known_surfaceLine hi h

theorem known_step {s : Solid D} {st : Lso.RState} {mode : Mode} {l : Str} (hi : Known s st) {r : Lso.RState × Mode}
    (h : surfacesStep s (st, mode) l = .ok (some r)) : Known s r.1 := by
  cases mode with
  | faces => exact known_faceLine hi h
  | key => cases h; exact hi
  | triangles =>
    simp only [surfacesStep] at h
    split at h
    · obtain ⟨st1, h1, h⟩ := bind_eq_ok.1 h
      cases h
      exact known_triangle hi h1
    · exact known_faceLine hi h

theorem known_loop {s : Solid D} (f : File) : ∀ {st : Lso.RState} {mode : Mode} {r : Lso.RState × Str × File}, Known s st →
    readSurfacesLoop s (st, mode) f = .ok r → Known s r.1 := by
  induction f with
  | nil => intro st mode r hi h; cases h; exact hi
  | cons l ls ih =>
    intro st mode r hi h
    unfold readSurfacesLoop at h
    obtain ⟨o, ho, h⟩ := bind_eq_ok.1 h
    cases o with
    | none => cases h; exact hi
    | some p => exact ih (known_step hi ho) h

theorem known_surfaces {s : Solid D} {l : Str} {f : File} {r : Lso.RState × Str × File} (h : Lso.readSurfaces s l f = .ok r) : Known s r.1 := by
  have h0 : Known s {} := ⟨by simp, by simp⟩
  unfold Lso.readSurfaces at h
  obtain ⟨f, -, h⟩ := bind_eq_ok.1 h
  cases f with
  | nil => cases h; exact h0
  | cons l ls =>
    simp only at h
    obtain ⟨o, ho, h⟩ := bind_eq_ok.1 h
    cases o with
    | none => cases h; exact h0
    | some p => exact known_loop ls (known_surfaceLine h0 ho) h

/-- The surfaces of a model that is loaded: every vertex is a vertex of the solid and has a unique vertex, and every cell has three vertices of the
surface. -/
theorem surfaces_known {f : File} {L : Loaded D} (h : loadLso f = .ok L) : ∀ r ∈ L.surfaces,
    (∀ v ∈ r.vertices, ∃ u, L.solid.ids[v]? = some u ∧ v < L.solid.points.length) ∧
    (∀ t ∈ r.triangles, t.length = 3 ∧ ∀ v ∈ t, v < r.vertices.length) := by
  unfold loadLso at h
  obtain ⟨⟨_, f⟩, -, h⟩ := bind_eq_ok.1 h
  obtain ⟨⟨name, f⟩, -, h⟩ := bind_eq_ok.1 h
  obtain ⟨⟨crs, f⟩, -, h⟩ := bind_eq_ok.1 h
  obtain ⟨⟨vh, f⟩, -, h⟩ := bind_eq_ok.1 h
  obtain ⟨⟨th, f⟩, -, h⟩ := bind_eq_ok.1 h
  obtain ⟨⟨s1, l, f⟩, hv, h⟩ := bind_eq_ok.1 h
  obtain ⟨⟨l, f⟩, -, h⟩ := bind_eq_ok.1 h
  obtain ⟨⟨s, l, f⟩, ht, h⟩ := bind_eq_ok.1 h
  obtain ⟨⟨l, f⟩, -, h⟩ := bind_eq_ok.1 h
  obtain ⟨⟨st, l, f⟩, hst, h⟩ := bind_eq_ok.1 h
  obtain ⟨⟨bs, i⟩, -, h⟩ := bind_eq_ok.1 h
  cases h
  have hn : Numbered s1 := numbered_vertices (by rfl) hv
  obtain ⟨e1, e2⟩ := tetras_same _ _ _ _ ht
  simp only at e1 e2
  have hk := known_surfaces hst
  have hi := inv_surfaces hst
  intro r hr
  refine ⟨fun v hvr => ?_, fun t htr => ⟨hk.three r hr t htr, hi.known r hr t htr⟩⟩
  have hl := hk.vertices r hr v hvr
  have : v < s.ids.length := by rw [e1, hn, ← e2]; exact hl
  exact ⟨_, List.getElem?_eq_getElem this, hl⟩

/-! ## What is loaded -/

/-- Two corners of a triangle of a surface have the given unique vertices. -/
def HasEdge (s : Solid D) (r : RSurface) (a b : Nat) : Prop :=
  ∃ t ∈ r.triangles, ∃ (i j : Nat) (x y : Nat), i ≠ j ∧ t[i]? = some x ∧ t[j]? = some y ∧ uniqueOf s r x = a ∧ uniqueOf s r y = b

theorem triangleEdges_mem {t : List Nat} (h : t.length = 3) {x y : Nat} :
    ((x, y) ∈ triangleEdges t ∨ (y, x) ∈ triangleEdges t) ↔ ∃ i j : Nat, i ≠ j ∧ t[i]? = some x ∧ t[j]? = some y := by
  match t, h with
  | [a, b, c], _ =>
    simp only [triangleEdges, List.mem_cons, Prod.mk.injEq, List.not_mem_nil, or_false]
    constructor
    · rintro ((⟨rfl, rfl⟩ | ⟨rfl, rfl⟩ | ⟨rfl, rfl⟩) | (⟨rfl, rfl⟩ | ⟨rfl, rfl⟩ | ⟨rfl, rfl⟩))
      · exact ⟨0, 1, by decide, rfl, rfl⟩
      · exact ⟨1, 2, by decide, rfl, rfl⟩
      · exact ⟨2, 0, by decide, rfl, rfl⟩
      · exact ⟨1, 0, by decide, rfl, rfl⟩
      · exact ⟨2, 1, by decide, rfl, rfl⟩
      · exact ⟨0, 2, by decide, rfl, rfl⟩
    · rintro ⟨i, j, hij, hi, hj⟩
      have h1 := (List.getElem?_eq_some_iff.1 hi).1
      have h2 := (List.getElem?_eq_some_iff.1 hj).1
      simp only [List.length_cons, List.length_nil] at h1 h2
      have hi3 : i = 0 ∨ i = 1 ∨ i = 2 := by omega
      have hj3 : j = 0 ∨ j = 1 ∨ j = 2 := by omega
      rcases hi3 with rfl | rfl | rfl <;> rcases hj3 with rfl | rfl | rfl <;> simp_all

omit [Num D] in
theorem edgesOf_mem {s : Solid D} {r : RSurface} (h : ∀ t ∈ r.triangles, t.length = 3) {a b : Nat} :
    ((a, b) ∈ edgesOf s r ∨ (b, a) ∈ edgesOf s r) ↔ HasEdge s r a b := by
  unfold edgesOf HasEdge
  simp only [List.mem_map, List.mem_flatMap, Prod.mk.injEq, Prod.exists]
  constructor
  · rintro (⟨x, y, ⟨t, ht, h1⟩, rfl, rfl⟩ | ⟨y, x, ⟨t, ht, h1⟩, rfl, rfl⟩)
    · obtain ⟨i, j, hij, hi, hj⟩ := (triangleEdges_mem (h t ht)).1 (.inl h1)
      exact ⟨t, ht, i, j, x, y, hij, hi, hj, rfl, rfl⟩
    · obtain ⟨i, j, hij, hi, hj⟩ := (triangleEdges_mem (h t ht) (x := x) (y := y)).1 (.inr h1)
      exact ⟨t, ht, i, j, x, y, hij, hi, hj, rfl, rfl⟩
  · rintro ⟨t, ht, i, j, x, y, hij, hi, hj, rfl, rfl⟩
    rcases (triangleEdges_mem (h t ht) (x := x) (y := y)).2 ⟨i, j, hij, hi, hj⟩ with h1 | h1
    · exact .inl ⟨x, y, ⟨t, ht, h1⟩, rfl, rfl⟩
    · exact .inr ⟨y, x, ⟨t, ht, h1⟩, rfl, rfl⟩

/-- The border of a surface has, at a corner, an edge whose line is line `k`. -/
def Meets (t : Topology) (b : Border) (k : Nat) : Prop := ∃ e ∈ b.ends, e.1 ∈ t.corners ∧ commonLine t.lines e = some k

/-- A line starts along the edge of a triangle of a surface, but the border of the surface never goes along the line from a corner. -/
def Crossed (mesh : RSurface → Border) (w : Whole D) (r : RSurface) (k : Nat) : Prop :=
  ∃ a b l, w.topology.lines[k]? = some (a :: b :: l) ∧ HasEdge w.model.solid r a b ∧ ¬ Meets w.topology (borderOf mesh w.model.solid r) k

theorem passages_pos {t : Topology} {b : Border} {k : Nat} : passages t.corners t.lines b k ≠ 0 ↔ Meets t b k := by
  unfold passages Meets
  rw [← Nat.pos_iff_ne_zero, List.length_pos_iff_exists_mem]
  constructor
  · rintro ⟨e, he⟩
    obtain ⟨h1, h2⟩ := List.mem_filter.1 he
    simp only [Bool.and_eq_true, decide_eq_true_eq] at h2
    exact ⟨e, h1, h2.1, h2.2⟩
  · rintro ⟨e, h1, h2, h3⟩
    exact ⟨e, List.mem_filter.2 ⟨h1, by simp [h2, h3]⟩⟩

theorem missing_mem {lines : List (List Nat)} {edges : List (Nat × Nat)} {r : Relations} {k : Nat} : k ∈ missingInternals lines edges r ↔
    (∃ a b l, lines[k]? = some (a :: b :: l) ∧ ((a, b) ∈ edges ∨ (b, a) ∈ edges)) ∧ k ∉ r.boundaries ∧ k ∉ r.internals := by
  unfold missingInternals
  rw [List.mem_filter, List.mem_range]
  constructor
  · rintro ⟨hk, h⟩
    simp only [Bool.and_eq_true, Bool.not_eq_true', Bool.or_eq_false_iff] at h
    refine ⟨?_, by simpa using h.2.1, by simpa using h.2.2⟩
    have h1 := h.1
    rw [List.getElem?_eq_getElem hk] at h1 ⊢
    simp only [Option.getD_some] at h1
    split at h1
    · next a b l e => exact ⟨a, b, l, by rw [e], by simpa using h1⟩
    · cases h1
  · rintro ⟨⟨a, b, l, e, h⟩, h1, h2⟩
    refine ⟨(List.getElem?_eq_some_iff.1 e).1, ?_⟩
    simp [e, h, h1, h2]

/-- The parts of a model loaded. -/
theorem load_parts {mesh : RSurface → Border} {f : File} {w : Whole D} (h : loadModel mesh f = .ok w) : loadLso f = .ok w.model ∧
    topology (containingSurfaces (w.model.surfaces.map (uniquesOf w.model.solid))) (w.model.surfaces.map (borderOf mesh w.model.solid)) = .ok w.topology ∧
    w.added = addedLines w.model w.topology ∧ w.inspect = (w.model.inspect || w.added.any fun l => !l.isEmpty) := by
  unfold loadModel at h
  obtain ⟨m, hm, h⟩ := bind_eq_ok.1 h
  obtain ⟨t, ht, h⟩ := bind_eq_ok.1 h
  cases h
  exact ⟨hm, ht, rfl, rfl⟩

/-- The mesh library gives sound borders: the next edge of each border edge is on the border, starts where the edge ends, and is the next edge of no
other. -/
def Sound (mesh : RSurface → Border) (surfaces : List RSurface) : Prop := ∀ r ∈ surfaces, NextOk (mesh r)

omit [Num D] in
theorem borderOf_ok {mesh : RSurface → Border} {surfaces : List RSurface} (h : Sound mesh surfaces) (s : Solid D) {r : RSurface} (hr : r ∈ surfaces) : NextOk (borderOf mesh s r) := by
  refine ⟨?_, ?_, ?_⟩
  · intro i hi
    simp only [borderOf, List.length_map] at hi ⊢
    exact (h r hr).lt i hi
  · intro i hi j hj e
    simp only [borderOf, List.length_map] at hi hj e
    exact (h r hr).inj i hi j hj e
  · intro i e f he hf
    simp only [borderOf, List.getElem?_map, Option.map_eq_some_iff] at he hf
    obtain ⟨e', he', rfl⟩ := he
    obtain ⟨f', hf', rfl⟩ := hf
    simp only [(h r hr).meets i e' f' he' hf']

theorem forall₂_zipWith {α β γ : Type} {R : α → β → Prop} {g : α → β → γ} {l : List α} {l' : List β} (h : List.Forall₂ R l l') {k : Nat} {a : α}
    (hk : l[k]? = some a) : ∃ b, l'[k]? = some b ∧ R a b ∧ (List.zipWith g l l')[k]? = some (g a b) := by
  induction h generalizing k with
  | nil => simp at hk
  | @cons x y l l' hxy _ ih =>
    cases k with
    | zero => simp only [List.getElem?_cons_zero, Option.some.injEq] at hk; subst hk; exact ⟨y, rfl, hxy, rfl⟩
    | succ k => exact ih (by simpa using hk)

/-- The lines added to each surface as internal lines are those that cross it. -/
theorem added_lines {mesh : RSurface → Border} {f : File} {w : Whole D} (h : loadModel mesh f = .ok w) (hs : Sound mesh w.model.surfaces) :
    w.added.length = w.model.surfaces.length ∧
    ∀ (i : Nat) (r : RSurface), w.model.surfaces[i]? = some r → ∃ ks : List Nat, w.added[i]? = some ks ∧ ∀ k, k ∈ ks ↔ Crossed mesh w r k := by
  obtain ⟨hm, ht, ha, -⟩ := load_parts h
  have hok : ∀ b ∈ w.model.surfaces.map (borderOf mesh w.model.solid), NextOk b := by
    intro b hb
    obtain ⟨r, hr, rfl⟩ := List.mem_map.1 hb
    exact borderOf_ok hs _ hr
  have hf := line_relations hok ht
  rw [List.forall₂_map_left_iff] at hf
  have hlen := hf.length_eq
  refine ⟨by rw [ha]; simp [addedLines, ← hlen], ?_⟩
  intro i r hr
  obtain ⟨rel, h1, h2, h3⟩ := forall₂_zipWith (g := fun r rel => missingInternals w.topology.lines (edgesOf w.model.solid r) rel) hf hr
  refine ⟨_, by rw [ha]; exact h3, ?_⟩
  intro k
  rw [missing_mem]
  have hk := surfaces_known hm r (List.mem_of_getElem? hr)
  unfold Crossed
  have h4 := h2 k
  have hpass : (k ∉ rel.boundaries ∧ k ∉ rel.internals) ↔ ¬ Meets w.topology (borderOf mesh w.model.solid r) k := by
    rw [h4.1, h4.2.1, ← passages_pos]
    have := h4.2.2
    omega
  rw [hpass]
  constructor
  · rintro ⟨⟨a, b, l, e, h⟩, h'⟩
    exact ⟨a, b, l, e, (edgesOf_mem fun t ht => (hk.2 t ht).1).1 h, h'⟩
  · rintro ⟨a, b, l, e, h, h'⟩
    exact ⟨⟨a, b, l, e, (edgesOf_mem fun t ht => (hk.2 t ht).1).2 h⟩, h'⟩

/-- When a model loaded has to be inspected, whatever the file: a triangle of a surface is not a facet of the solid, or a block has the facets of a
surface neither once nor twice, or a line crosses a surface without being on its border. -/
theorem whole_inspected {mesh : RSurface → Border} {f : File} {w : Whole D} (h : loadModel mesh f = .ok w) (hs : Sound mesh w.model.surfaces) :
    w.inspect = true ↔ LooseTriangle w.model.solid w.model.surfaces
      ∨ (∃ b ∈ w.model.blocks, ∃ k r, w.model.surfaces[k]? = some r ∧ nbFacets w.model.solid w.model.surfaces b k ≠ 0
          ∧ times w.model.solid w.model.surfaces b k r ≠ 1 ∧ times w.model.solid w.model.surfaces b k r ≠ 2)
      ∨ ∃ r ∈ w.model.surfaces, ∃ k, Crossed mesh w r k := by
  obtain ⟨hm, -, -, hi⟩ := load_parts h
  obtain ⟨hl, ha⟩ := added_lines h hs
  rw [hi, Bool.or_eq_true, (inspected hm).2, or_assoc]
  refine or_congr Iff.rfl (or_congr Iff.rfl ?_)
  rw [List.any_eq_true]
  constructor
  · rintro ⟨ks, hks, hne⟩
    obtain ⟨i, hi⟩ := List.mem_iff_getElem?.1 hks
    have hlt := (List.getElem?_eq_some_iff.1 hi).1
    rw [hl] at hlt
    obtain ⟨ks', e, hk⟩ := ha i _ (List.getElem?_eq_getElem hlt)
    rw [hi] at e
    cases e
    cases ks with
    | nil => simp at hne
    | cons k ks => exact ⟨_, List.getElem_mem hlt, k, (hk k).1 List.mem_cons_self⟩
  · rintro ⟨r, hr, k, hc⟩
    obtain ⟨i, hi⟩ := List.mem_iff_getElem?.1 hr
    obtain ⟨ks, e, hk⟩ := ha i r hi
    refine ⟨ks, List.mem_of_getElem? e, ?_⟩
    cases ks with
    | nil => exact absurd ((hk k).2 hc) (by simp)
    | cons => rfl

/-- The corners and lines add no undefined behaviour and no endless loop: a model whose components are read is loaded, or reported. -/
theorem loaded_or_reported {mesh : RSurface → Border} {f : File} {L : Loaded D} (h : loadLso f = .ok L) (hs : Sound mesh L.surfaces) :
    loadModel (D := D) mesh f = .throw ∨ ∃ w, loadModel mesh f = .ok w ∧ w.model = L := by
  have hok : ∀ b ∈ L.surfaces.map (borderOf mesh L.solid), NextOk b := by
    intro b hb
    obtain ⟨r, hr, rfl⟩ := List.mem_map.1 hb
    exact borderOf_ok hs _ hr
  unfold loadModel
  rw [h, ok_bind]
  rcases lines_end hok (containingSurfaces (L.surfaces.map (uniquesOf L.solid))) with e | ⟨t, e⟩
  · exact .inl (by rw [e]; rfl)
  · exact .inr ⟨_, by rw [e, ok_bind]; rfl, rfl⟩

/-! ## Witnesses -/

/-- The border of a surface whose triangles are oriented alike: the edges without an opposite edge, each followed by the one that starts where it ends. -/
def plainMesh (r : RSurface) : Border :=
  let edges := r.triangles.flatMap triangleEdges
  let ends := edges.filter fun e => !edges.contains (e.2, e.1)
  { ends, next := fun i => ends.findIdx fun e => some e.1 == (ends[i]?.map Prod.snd) }

/-- Triangles that are not adjacent to each other. -/
def apartMesh (r : RSurface) : Border :=
  { ends := r.triangles.flatMap triangleEdges, next := fun i => if i % 3 = 2 then i - 2 else i + 1 }

/-- A test of `NextOk`. -/
def nextTest (b : Border) : Bool :=
  (List.range b.ends.length).all fun i => decide (b.next i < b.ends.length)
    && ((List.range b.ends.length).all fun j => b.next i != b.next j || i == j)
    && (match b.ends[i]?, b.ends[b.next i]? with | some e, some f => f.1 == e.2 | _, _ => true)

theorem nextOk_of_test {b : Border} (h : nextTest b = true) : NextOk b := by
  unfold nextTest at h
  rw [List.all_eq_true] at h
  have key : ∀ i < b.ends.length, b.next i < b.ends.length ∧ (∀ j < b.ends.length, b.next i = b.next j → i = j) ∧
      ∀ e f, b.ends[i]? = some e → b.ends[b.next i]? = some f → f.1 = e.2 := by
    intro i hi
    have := h i (List.mem_range.2 hi)
    simp only [Bool.and_eq_true, decide_eq_true_eq, List.all_eq_true, List.mem_range, Bool.or_eq_true, bne_iff_ne, beq_iff_eq] at this
    refine ⟨this.1.1, fun j hj e => (this.1.2 j hj).resolve_left (fun h => h e), fun e f he hf => ?_⟩
    have h2 := this.2
    rw [he, hf] at h2
    simpa using h2
  exact ⟨fun i hi => (key i hi).1, fun i hi => (key i hi).2.1, fun i e f he hf => (key i (List.getElem?_eq_some_iff.1 he).1).2.2 e f he hf⟩

/-- Two tetrahedra of one block on both sides of the triangle 1 2 5. -/
def twoTetras (surfaces : File) : File :=
  [cs!"GOCAD LightTSolid 1", cs!"HEADER {", cs!"name:a", cs!"}"] ++ writeCrs {} ++
  [cs!"VRTX 1 0 0 0", cs!"VRTX 2 1 0 0", cs!"VRTX 3 0 1 0", cs!"VRTX 4 0 0 1", cs!"VRTX 5 1 1 1",
   cs!"TETRA 1 2 3 5", cs!"# CTETRA A none none none none", cs!"TETRA 2 1 4 5", cs!"# CTETRA A none none none none", cs!"MODEL"] ++ surfaces ++
  [cs!"MODEL_REGION A +1", cs!"END"]

/-- A surface of two triangles, and a surface that ends along their common edge. -/
def fin : File := twoTetras [cs!"SURFACE s", cs!"TFACE 1", cs!"KEYVERTICES 1 2 3", cs!"TRGL 1 2 3", cs!"TRGL 2 1 4",
  cs!"SURFACE t", cs!"TFACE 2", cs!"KEYVERTICES 1 2 5", cs!"TRGL 1 2 5"]

/-- The same with the two triangles in two surfaces. -/
def finSplit : File := twoTetras [cs!"SURFACE s", cs!"TFACE 1", cs!"KEYVERTICES 1 2 3", cs!"TRGL 1 2 3",
  cs!"SURFACE u", cs!"TFACE 2", cs!"KEYVERTICES 2 1 4", cs!"TRGL 2 1 4", cs!"SURFACE t", cs!"TFACE 3", cs!"KEYVERTICES 1 2 5", cs!"TRGL 1 2 5"]

/-- The same with the three triangles in one surface. -/
def finOne : File := twoTetras [cs!"SURFACE s", cs!"TFACE 1", cs!"KEYVERTICES 1 2 3", cs!"TRGL 1 2 3", cs!"TRGL 1 2 4", cs!"TRGL 1 2 5",
  cs!"SURFACE t", cs!"TFACE 2", cs!"KEYVERTICES 1 3 5", cs!"TRGL 1 3 5"]

/-- The end of the second surface crosses the first one: the line is made internal to it and the model has to be inspected, though the solid conforms. -/
theorem fin_inspected : (match loadModel (D := Int) plainMesh fin with
    | .ok w => !w.model.inspect && w.inspect && decide (w.added = [[2], []]) && decide (w.topology.lines[2]? = some [0, 1])
        && (w.model.surfaces.all fun r => nextTest (plainMesh r))
    | _ => false) = true := by decide +kernel

/-- Split along the line, the model has not to be inspected. -/
theorem finSplit_not_inspected : (match loadModel (D := Int) plainMesh finSplit with
    | .ok w => !w.inspect && decide (w.added = [[], [], []]) && (w.model.surfaces.all fun r => nextTest (plainMesh r))
    | _ => false) = true := by decide +kernel

/-- A line met three times along a surface is reported. -/
theorem finOne_reported : loadModel (D := Int) apartMesh finOne = .throw ∧ (match loadLso (D := Int) finOne with
    | .ok L => L.surfaces.all fun r => nextTest (apartMesh r)
    | _ => false) = true := by decide +kernel

end Verif.Props.LsoWhole
