import Verif.Props.LsoStable
import Verif.Props.LsoWhole
import Verif.Props.MlCases
import Verif.Props.MlOutcomes
import Verif.Props.MlRoundTrip

/-!
# Structural models loaded from `.lso` files and saved to `.ml` files

What the reader of `.lso` files gives is given to the writer of `.ml` files (`ml_output_structural_model.cpp`), and the file is loaded.  The tetrahedra of
the blocks are not in `.ml` files: what can be kept are the surfaces, the horizons and the relations between blocks and surfaces.
-/

set_option linter.unusedSectionVars false

namespace Verif.Props.LsoToMl

open Verif Verif.Gocad Verif.GocadMesh Verif.Lso Verif.Props.LsoStable Res

variable {D : Type} [Num D]

/-- A triangle given by its three vertices. -/
def toTri : List Nat → Tri
  | [a, b, c] => (a, b, c)
  | _ => (0, 0, 0)

/-- The model loaded from a `.lso` file, to be saved to a `.ml` file.  The surfaces have the names of their horizons (`lso_input.cpp` lines 249-265), and
new horizons are conformal.  `ids` are the identifiers of the blocks, `starts` the line starts of the surfaces, and `ext` the model boundaries that
`build_model_boundaries` adds (`lso_input.cpp` line 118), which is in another library. -/
def toMl (ids : Nat → Nat) (starts : Nat → List (Nat × Nat)) (ext : List (Str × List Nat)) (L : Lso.Loaded D) : Ml.Model D where
  name := L.name
  surfaces := L.surfaces.zipIdx.map fun e =>
    { id := e.2, name := e.1.name, points := pointsAt L.solid e.1.vertices, triangles := e.1.triangles.map toTri, starts := starts e.2 }
  boundaries := ext
  horizons := L.horizons.zipIdx.map fun e => (.conformal, some e.1, ranksOf L.surfaces e.2)
  blocks := L.blocks.zipIdx.map fun e => { id := ids e.2, name := e.1.name, boundaries := e.1.boundaries, internals := e.1.internals }

/-! ## The horizons of the surfaces that are read -/

/-- The surfaces come horizon by horizon, with the names of their horizons. -/
structure Sorted (st : Lso.RState) : Prop where
  sorted : st.surfaces.Pairwise fun a b => a.horizon ≤ b.horizon
  known : ∀ r ∈ st.surfaces, st.horizons[r.horizon]? = some r.name

theorem sorted_surfaceLine {st : Lso.RState} (h : Sorted st) {l : Str} {p : Lso.RState × Lso.Mode} (e : surfaceLine st l = .ok (some p)) :
    Sorted p.1 ∧ p.1.horizons ≠ [] := by
  unfold surfaceLine at e
  split at e
  · obtain ⟨_, -, e⟩ := bind_eq_ok.1 e
    cases e
    refine ⟨⟨h.sorted, fun r hr => ?_⟩, by simp⟩
    have := h.known r hr
    rw [List.getElem?_append_left (List.getElem?_eq_some_iff.1 this).1]
    exact this
  · cases e

theorem sorted_faceLine {st : Lso.RState} (h : Sorted st) (hn : st.horizons ≠ []) {l : Str} {p : Lso.RState × Lso.Mode} (e : faceLine st l = .ok (some p)) :
    Sorted p.1 ∧ p.1.horizons ≠ [] := by
  unfold faceLine at e
  split at e
  · cases e
    refine ⟨⟨?_, ?_⟩, hn⟩
    · rw [List.pairwise_append]
      refine ⟨h.sorted, List.pairwise_singleton _ _, fun a ha b hb => ?_⟩
      rw [List.mem_singleton.1 hb]
      have := (List.getElem?_eq_some_iff.1 (h.known a ha)).1
      simp only
      omega
    · intro r hr
      rcases List.mem_append.1 hr with hr | hr
      · exact h.known r hr
      · rw [List.mem_singleton.1 hr]
        simp only
        rw [List.getLastD_eq_getLast?, ← List.getLast?_eq_getElem?, List.getLast?_eq_getLast_of_ne_nil hn]
        rfl
  · exact sorted_surfaceLine h e

theorem sorted_triangle {s : Solid D} {st st' : Lso.RState} (h : Sorted st) {l : Str} (e : readTriangle s st l = .ok st') :
    Sorted st' ∧ st'.horizons = st.horizons := by
  unfold readTriangle at e
  obtain ⟨t, -, e⟩ := bind_eq_ok.1 e
  obtain ⟨_, -, e⟩ := bind_eq_ok.1 e
  obtain ⟨fs, -, e⟩ := bind_eq_ok.1 e
  cases hr : st.surfaces.reverse with
  | nil => rw [hr] at e; cases e
  | cons cur before =>
    rw [hr] at e
    have hs : st.surfaces = before.reverse ++ [cur] := by rw [← List.reverse_reverse st.surfaces, hr, List.reverse_cons]
    cases e
    refine ⟨⟨?_, ?_⟩, rfl⟩
    · have := h.sorted
      rw [hs, List.pairwise_append] at this
      simp only
      rw [List.pairwise_append]
      refine ⟨this.1, List.pairwise_singleton _ _, fun a ha b hb => ?_⟩
      rw [List.mem_singleton.1 hb]
      exact this.2.2 a ha cur (by simp)
    · intro r hr
      simp only at hr ⊢
      rcases List.mem_append.1 hr with hr | hr
      · exact h.known r (by rw [hs]; exact List.mem_append_left _ hr)
      · rw [List.mem_singleton.1 hr]
        exact h.known cur (by rw [hs]; simp)

theorem sorted_step {s : Solid D} {st : Lso.RState} (h : Sorted st) (hn : st.horizons ≠ []) {mode : Lso.Mode} {l : Str} {p : Lso.RState × Lso.Mode}
    (e : surfacesStep s (st, mode) l = .ok (some p)) : Sorted p.1 ∧ p.1.horizons ≠ [] := by
  cases mode with
  | faces => exact sorted_faceLine h hn e
  | key => cases e; exact ⟨h, hn⟩
  | triangles =>
    unfold surfacesStep at e
    simp only at e
    split at e
    · obtain ⟨st', e1, e⟩ := bind_eq_ok.1 e
      cases e
      obtain ⟨h1, h2⟩ := sorted_triangle h e1
      exact ⟨h1, by rw [h2]; exact hn⟩
    · exact sorted_faceLine h hn e

theorem sorted_loop {s : Solid D} (f : File) : ∀ {st : Lso.RState} {mode : Lso.Mode} {r : Lso.RState × Str × File}, Sorted st → st.horizons ≠ [] →
    readSurfacesLoop s (st, mode) f = .ok r → Sorted r.1 := by
  induction f with
  | nil => intro st mode r h _ e; cases e; exact h
  | cons l ls ih =>
    intro st mode r h hn e
    unfold readSurfacesLoop at e
    obtain ⟨o, ho, e⟩ := bind_eq_ok.1 e
    cases o with
    | none => cases e; exact h
    | some p =>
      obtain ⟨h1, h2⟩ := sorted_step h hn ho
      exact ih h1 h2 e

theorem sorted_surfaces {s : Solid D} {l : Str} {f : File} {r : Lso.RState × Str × File} (e : readSurfaces s l f = .ok r) : Sorted r.1 := by
  have h0 : Sorted {} := ⟨List.Pairwise.nil, by simp⟩
  unfold readSurfaces at e
  obtain ⟨f, -, e⟩ := bind_eq_ok.1 e
  cases f with
  | nil => cases e; exact h0
  | cons l ls =>
    simp only at e
    obtain ⟨o, ho, e⟩ := bind_eq_ok.1 e
    cases o with
    | none => cases e; exact h0
    | some p =>
      obtain ⟨h1, h2⟩ := sorted_surfaceLine h0 ho
      exact sorted_loop ls h1 h2 e

/-- Whatever the file, the surfaces of a horizon are read one after the other, and have its name. -/
theorem surfaces_sorted {f : File} {L : Lso.Loaded D} (h : loadLso f = .ok L) :
    (L.surfaces.Pairwise fun a b => a.horizon ≤ b.horizon) ∧ ∀ r ∈ L.surfaces, L.horizons[r.horizon]? = some r.name := by
  unfold loadLso at h
  obtain ⟨⟨_, f⟩, -, h⟩ := bind_eq_ok.1 h
  obtain ⟨⟨name, f⟩, -, h⟩ := bind_eq_ok.1 h
  obtain ⟨⟨crs, f⟩, -, h⟩ := bind_eq_ok.1 h
  obtain ⟨⟨vh, f⟩, -, h⟩ := bind_eq_ok.1 h
  obtain ⟨⟨th, f⟩, -, h⟩ := bind_eq_ok.1 h
  obtain ⟨⟨s, l, f⟩, -, h⟩ := bind_eq_ok.1 h
  obtain ⟨⟨l, f⟩, -, h⟩ := bind_eq_ok.1 h
  obtain ⟨⟨s, l, f⟩, -, h⟩ := bind_eq_ok.1 h
  obtain ⟨⟨l, f⟩, -, h⟩ := bind_eq_ok.1 h
  obtain ⟨⟨st, l, f⟩, hst, h⟩ := bind_eq_ok.1 h
  obtain ⟨⟨bs, i⟩, -, h⟩ := bind_eq_ok.1 h
  cases h
  exact ⟨(sorted_surfaces hst).sorted, (sorted_surfaces hst).known⟩

/-! ## The order of the surfaces in the file -/

theorem filter_lt_succ {A : Type} (key : A → Nat) (H : Nat) : ∀ {l : List A}, l.Pairwise (fun a b => key a ≤ key b) →
    l.filter (fun a => key a < H) ++ l.filter (fun a => key a = H) = l.filter fun a => key a < H + 1
  | [], _ => rfl
  | a :: l, h => by
    rw [List.pairwise_cons] at h
    have ih := filter_lt_succ key H h.2
    rcases Nat.lt_trichotomy (key a) H with hlt | heq | hgt
    · simp [hlt, Nat.ne_of_lt hlt, Nat.lt_succ_of_lt hlt, ih]
    · have e : l.filter (fun a => decide (key a < H)) = [] := by
        rw [List.filter_eq_nil_iff]
        intro b hb
        have := h.1 b hb
        simp; omega
      rw [e] at ih
      simp [heq, e, ← ih]
    · have h1 : ¬key a < H := by omega
      have h2 : ¬key a = H := by omega
      have h3 : ¬key a < H + 1 := by omega
      simp [h1, h2, h3, ih]

theorem flatMap_filter {A : Type} (key : A → Nat) {l : List A} (h : l.Pairwise fun a b => key a ≤ key b) (H : Nat) :
    (List.range H).flatMap (fun k => l.filter fun a => key a = k) = l.filter fun a => key a < H := by
  induction H with
  | zero => simp
  | succ H ih =>
    rw [List.range_succ, List.flatMap_append, ih, List.flatMap_singleton, filter_lt_succ key H h]

theorem zipIdx_sorted {l : List RSurface} (h : l.Pairwise fun a b => a.horizon ≤ b.horizon) :
    l.zipIdx.Pairwise fun a b => a.1.horizon ≤ b.1.horizon := by
  have : (l.zipIdx.map Prod.fst).Pairwise fun a b => a.horizon ≤ b.horizon := by rw [List.zipIdx_map_fst]; exact h
  exact (List.pairwise_map (R := fun a b : RSurface => a.horizon ≤ b.horizon)).1 this

theorem ranks_all {rs : List RSurface} (h : rs.Pairwise fun a b => a.horizon ≤ b.horizon) {H : Nat} (hlt : ∀ r ∈ rs, r.horizon < H) :
    (List.range H).flatMap (ranksOf rs) = List.range rs.length := by
  unfold ranksOf
  have e : (fun k => (rs.zipIdx.filter fun e => decide (e.1.horizon = k)).map Prod.snd) =
      fun k => List.map Prod.snd ((fun k => rs.zipIdx.filter fun e => decide (e.1.horizon = k)) k) := rfl
  rw [e, ← List.map_flatMap, flatMap_filter (fun e : RSurface × Nat => e.1.horizon) (zipIdx_sorted h)]
  rw [List.filter_eq_self.2 (fun e he => ?_)]
  · rw [List.zipIdx_map_snd, List.range_eq_range']
  · have := hlt e.1 (List.fst_mem_of_mem_zipIdx he)
    simpa using this

/-! ## The model that is saved -/

/-- What is asked of a loaded model: good names, a surface in every horizon, a triangle in every surface, blocks that `.ml` files can describe, and
numbers that the readers can count. -/
structure Convertible (L : Lso.Loaded D) : Prop where
  name : ∀ n, L.name = some n → GoodObjectName n
  horizonNames : ∀ n ∈ L.horizons, GoodName n
  distinct : L.horizons.Nodup
  faces : ∀ k, k < L.horizons.length → ∃ r ∈ L.surfaces, r.horizon = k
  triangles : ∀ r ∈ L.surfaces, r.triangles ≠ []
  blockNames : ∀ b ∈ L.blocks, GoodName (Ml.componentName b.name) ∧ Ml.componentName b.name ≠ cs!"Universe"
  relations : ∀ b ∈ L.blocks, 2 ≤ b.boundaries.length + 2 * b.internals.length
  size : 1 + L.surfaces.length + 1 + L.blocks.length < 2147483648
  points : 1 + (L.surfaces.map fun r => r.vertices.length).sum ≤ W

variable {f : File} {L : Lso.Loaded D} {ext : List (Str × List Nat)} {ids : Nat → Nat} {starts : Nat → List (Nat × Nat)}

theorem horizons_flat (h : loadLso f = .ok L) : (toMl ids starts ext L).horizons.flatMap (fun h => h.2.2) = List.range L.surfaces.length := by
  obtain ⟨h1, h2⟩ := surfaces_sorted h
  have e : (toMl ids starts ext L).horizons.flatMap (fun h => h.2.2) = (L.horizons.zipIdx.map Prod.snd).flatMap (ranksOf L.surfaces) := by
    unfold toMl
    simp only [List.flatMap_map]
  rw [e, List.zipIdx_map_snd, ← List.range_eq_range']
  exact ranks_all h1 fun r hr => (List.getElem?_eq_some_iff.1 (h2 r hr)).1

theorem surfaces_ids : (toMl ids starts ext L).surfaces.map Ml.Surface.id = List.range L.surfaces.length := by
  have : (toMl ids starts ext L).surfaces.map Ml.Surface.id = L.surfaces.zipIdx.map Prod.snd := by
    unfold toMl
    rw [List.map_map]
    rfl
  rw [this, List.zipIdx_map_snd, List.range_eq_range']

theorem unclassified_none (h : loadLso f = .ok L) : Ml.unclassified (toMl ids starts ext L) = [] := by
  unfold Ml.unclassified
  rw [List.filter_eq_nil_iff]
  intro s hs
  have hm : s.id ∈ List.range L.surfaces.length := by rw [← surfaces_ids (ids := ids) (starts := starts) (ext := ext)]; exact List.mem_map_of_mem hs
  rw [← horizons_flat (ids := ids) (starts := starts) (ext := ext) h] at hm
  obtain ⟨c, hc, hi⟩ := List.mem_flatMap.1 hm
  have : ((toMl ids starts ext L).horizons.any fun h => h.2.2.contains s.id) = true := List.any_eq_true.2 ⟨c, hc, by simpa using hi⟩
  rw [this]
  simp [toMl]

theorem order_range (h : loadLso f = .ok L) : Ml.order (toMl ids starts [] L) = List.range L.surfaces.length := by
  unfold Ml.order
  rw [unclassified_none h]
  have e1 : (toMl ids starts [] L).boundaries = [] := rfl
  have e2 : Ml.faultsOf (toMl ids starts [] L) = [] := rfl
  have e3 : Ml.horizonsOf (toMl ids starts [] L) = (toMl ids starts [] L).horizons := rfl
  rw [e1, e2, e3, horizons_flat h]
  simp

theorem rank_self (h : loadLso f = .ok L) {i : Nat} (hi : i < L.surfaces.length) : Ml.rank (toMl ids starts [] L) i = i := by
  unfold Ml.rank
  rw [order_range h]
  have := List.Nodup.idxOf_getElem (List.nodup_range (n := L.surfaces.length)) i (by simpa using hi)
  simpa using this

theorem mem_surfaces {s : Ml.Surface D} : s ∈ (toMl ids starts ext L).surfaces ↔ ∃ j r, L.surfaces[j]? = some r ∧
    s = { id := j, name := r.name, points := pointsAt L.solid r.vertices, triangles := r.triangles.map toTri, starts := starts j } := by
  unfold toMl
  simp only [List.mem_map]
  constructor
  · rintro ⟨e, he, rfl⟩
    exact ⟨e.2, e.1, mem_zipIdx'.1 he, rfl⟩
  · rintro ⟨j, r, hr, rfl⟩
    exact ⟨(r, j), mem_zipIdx'.2 hr, rfl⟩

theorem mem_blocks {b1 : Ml.Block} : b1 ∈ (toMl ids starts ext L).blocks ↔ ∃ k b, L.blocks[k]? = some b ∧
    b1 = { id := ids k, name := b.name, boundaries := b.boundaries, internals := b.internals } := by
  unfold toMl
  simp only [List.mem_map]
  constructor
  · rintro ⟨e, he, rfl⟩
    exact ⟨e.2, e.1, mem_zipIdx'.1 he, rfl⟩
  · rintro ⟨j, r, hr, rfl⟩
    exact ⟨(r, j), mem_zipIdx'.2 hr, rfl⟩

theorem mem_horizons {h1 : Ml.Contact × Option Str × List Nat} : h1 ∈ (toMl ids starts ext L).horizons ↔ ∃ k n, L.horizons[k]? = some n ∧
    h1 = (.conformal, some n, ranksOf L.surfaces k) := by
  unfold toMl
  simp only [List.mem_map]
  constructor
  · rintro ⟨e, he, rfl⟩
    exact ⟨e.2, e.1, mem_zipIdx'.1 he, rfl⟩
  · rintro ⟨j, r, hr, rfl⟩
    exact ⟨(r, j), mem_zipIdx'.2 hr, rfl⟩

theorem pointsAt_length {s : Solid D} {vs : List Nat} (h : ∀ v ∈ vs, v < s.points.length) : (pointsAt s vs).length = vs.length := by
  unfold pointsAt
  induction vs with
  | nil => rfl
  | cons v vs ih =>
    rw [List.filterMap_cons_some (List.getElem?_eq_getElem (h v (by simp))), List.length_cons, List.length_cons, ih fun w hw => h w (List.mem_cons_of_mem _ hw)]

theorem toTri_lt {t : List Nat} (h : t.length = 3) {n : Nat} (hn : ∀ v ∈ t, v < n) : (toTri t).1 < n ∧ (toTri t).2.1 < n ∧ (toTri t).2.2 < n := by
  match t, h with
  | [a, b, c], _ => exact ⟨hn a (by simp), hn b (by simp), hn c (by simp)⟩

/-- The sides of the boundaries of the blocks are known. -/
def HasSides (sides : Sides.AllSides) (ids : Nat → Nat) (L : Lso.Loaded D) : Prop :=
  ∀ (k : Nat) (b : RBlock D), L.blocks[k]? = some b → ∀ j ∈ b.boundaries, (Sides.find sides.regions (ids k, j)).isSome = true

/-- The line starts are vertices of the surfaces. -/
def HasStarts (starts : Nat → List (Nat × Nat)) (L : Lso.Loaded D) : Prop :=
  ∀ (k : Nat) (r : RSurface), L.surfaces[k]? = some r → ∀ e ∈ starts k, e.1 < r.vertices.length ∧ e.2 < r.vertices.length

theorem relations_known (h : loadLso f = .ok L) {b : RBlock D} (hb : b ∈ L.blocks) : ∀ i ∈ b.boundaries ++ b.internals, i < L.surfaces.length := by
  intro i hi
  have := (LsoInspect.inspected h).1 b hb i
  rcases List.mem_append.1 hi with hi | hi
  · obtain ⟨r, hr, -⟩ := this.1.1 hi
    exact (List.getElem?_eq_some_iff.1 hr).1
  · obtain ⟨r, hr, -⟩ := this.2.1 hi
    exact (List.getElem?_eq_some_iff.1 hr).1

theorem blocks_sorted (h : loadLso f = .ok L) {b : RBlock D} (hb : b ∈ L.blocks) : b.boundaries.Pairwise (· < ·) ∧ b.internals.Pairwise (· < ·) := by
  unfold loadLso at h
  obtain ⟨⟨_, f⟩, -, h⟩ := bind_eq_ok.1 h
  obtain ⟨⟨name, f⟩, -, h⟩ := bind_eq_ok.1 h
  obtain ⟨⟨crs, f⟩, -, h⟩ := bind_eq_ok.1 h
  obtain ⟨⟨vh, f⟩, -, h⟩ := bind_eq_ok.1 h
  obtain ⟨⟨th, f⟩, -, h⟩ := bind_eq_ok.1 h
  obtain ⟨⟨s, l, f⟩, -, h⟩ := bind_eq_ok.1 h
  obtain ⟨⟨l, f⟩, -, h⟩ := bind_eq_ok.1 h
  obtain ⟨⟨s, l, f⟩, -, h⟩ := bind_eq_ok.1 h
  obtain ⟨⟨l, f⟩, -, h⟩ := bind_eq_ok.1 h
  obtain ⟨⟨st, l, f⟩, hst, h⟩ := bind_eq_ok.1 h
  obtain ⟨⟨bs, i⟩, hbs, h⟩ := bind_eq_ok.1 h
  cases h
  rw [LsoInspect.blocks_read] at hbs
  obtain ⟨rs, hrs, e⟩ := bind_eq_ok.1 hbs
  obtain ⟨e1, -⟩ := Prod.mk.inj (Res.ok.inj e)
  rw [List.nil_append] at e1
  subst e1
  obtain ⟨r, hr, rfl⟩ := List.mem_map.1 hb
  obtain ⟨l, e⟩ := LsoInspect.forall₂_mem (mapM'_inv hrs) hr
  unfold readBlock at e
  obtain ⟨name, -, e⟩ := bind_eq_ok.1 e
  obtain ⟨_, -, e⟩ := bind_eq_ok.1 e
  obtain ⟨_, -, e⟩ := bind_eq_ok.1 e
  cases e
  have hs : ∀ (T : List (List Nat)) (o : Option Nat), (((relationsOf st T).filter fun r => r.2 = o).map Prod.fst).Pairwise (· < ·) := by
    intro T o
    have h1 : ((relationsOf st T).map Prod.fst).Pairwise (· < ·) := by
      have : (relationsOf st T).map Prod.fst = List.range st.surfaces.length := by
        unfold relationsOf
        rw [List.map_map]
        change st.surfaces.zipIdx.map Prod.snd = _
        rw [List.zipIdx_map_snd, List.range_eq_range']
      rw [this]; exact List.pairwise_lt_range
    exact h1.sublist (List.filter_sublist.map Prod.fst)
  exact ⟨hs _ _, hs _ _⟩

theorem relations_once (h : loadLso f = .ok L) {b : RBlock D} (hb : b ∈ L.blocks) : (b.boundaries ++ b.internals).Nodup := by
  obtain ⟨h1, h2⟩ := blocks_sorted h hb
  rw [List.nodup_append]
  refine ⟨h1.imp fun h => Nat.ne_of_lt h, h2.imp fun h => Nat.ne_of_lt h, fun a ha c hc e => ?_⟩
  subst e
  have := (LsoInspect.inspected h).1 b hb a
  obtain ⟨r, hr, t1⟩ := this.1.1 ha
  obtain ⟨r', hr', t2⟩ := this.2.1 hc
  rw [hr] at hr'
  cases hr'
  omega

theorem nbPoints_toMl (h : loadLso f = .ok L) : Ml.nbPoints (toMl ids starts ext L).surfaces = (L.surfaces.map fun r => r.vertices.length).sum := by
  unfold Ml.nbPoints toMl
  rw [List.map_map]
  congr 1
  have : L.surfaces.map (fun r => r.vertices.length) = L.surfaces.zipIdx.map fun e => e.1.vertices.length := by
    conv => lhs; rw [← List.zipIdx_map_fst 0 L.surfaces, List.map_map]
    rfl
  rw [this]
  refine List.map_congr_left fun e he => ?_
  have hm := List.fst_mem_of_mem_zipIdx he
  exact pointsAt_length fun v hv => by
    obtain ⟨_, _, h'⟩ := (LsoWhole.surfaces_known h e.1 hm).1 v hv
    exact h'

theorem good (h : loadLso f = .ok L) (c : Convertible L) {sides : Sides.AllSides} (hs : HasSides sides ids L) (hst : HasStarts starts L) :
    Ml.GoodModel (toMl ids starts [] L) sides where
  name := c.name
  meshes := by
    intro s hs
    obtain ⟨j, r, hr, rfl⟩ := mem_surfaces.1 hs
    have hm := List.mem_of_getElem? hr
    obtain ⟨k1, k2⟩ := LsoWhole.surfaces_known h r hm
    have hl : (pointsAt L.solid r.vertices).length = r.vertices.length := pointsAt_length fun v hv => by
      obtain ⟨_, _, h'⟩ := k1 v hv
      exact h'
    refine ⟨?_, ?_, ?_⟩
    · simpa using c.triangles r hm
    · intro t ht
      obtain ⟨t', ht', rfl⟩ := List.mem_map.1 ht
      simp only [hl]
      exact toTri_lt (k2 t' ht').1 (k2 t' ht').2
    · intro e he
      simp only [hl]
      exact hst j r hr e he
  ids := by rw [surfaces_ids]; exact List.nodup_range
  once := by rw [order_range h]; exact List.nodup_range
  known := by rw [order_range h, surfaces_ids]; exact fun i hi => hi
  faultNames := by intro f hf; cases hf
  horizonNames := by
    intro h1 hh
    obtain ⟨k, n, _, rfl⟩ := mem_horizons.1 hh
    rfl
  names := by
    intro n hn
    unfold Ml.tsurfNames at hn
    rw [unclassified_none h] at hn
    simp only [List.map_nil, List.append_nil, List.mem_append] at hn
    rcases hn with (hn | hn) | hn
    · cases hn
    · cases hn
    · obtain ⟨h1, hh, rfl⟩ := List.mem_map.1 hn
      obtain ⟨k, n, hk, rfl⟩ := mem_horizons.1 hh
      exact c.horizonNames n (List.mem_of_getElem? hk)
  distinct := by
    have e : Ml.tsurfNames (toMl ids starts [] L) = L.horizons := by
      unfold Ml.tsurfNames
      rw [unclassified_none h]
      have : (Ml.horizonsOf (toMl ids starts [] L)).map (fun h => Ml.nameOf h.2.1) = L.horizons.zipIdx.map Prod.fst := by
        change (L.horizons.zipIdx.map fun e => (Ml.Contact.conformal, some e.1, ranksOf L.surfaces e.2)).map _ = _
        rw [List.map_map]
        rfl
      rw [this, List.zipIdx_map_fst]
      simp [toMl, Ml.faultsOf]
    rw [e]
    exact c.distinct
  boundaryItems := by intro b hb; cases hb
  faultItems := by intro f hf; cases hf
  horizonItems := by
    intro h1 hh
    obtain ⟨k, n, hk, rfl⟩ := mem_horizons.1 hh
    obtain ⟨r, hr, e⟩ := c.faces k (List.getElem?_eq_some_iff.1 hk).1
    obtain ⟨j, hj⟩ := List.mem_iff_getElem?.1 hr
    intro e0
    have : j ∈ ranksOf L.surfaces k := by
      unfold ranksOf
      exact List.mem_map.2 ⟨(r, j), List.mem_filter.2 ⟨mem_zipIdx'.2 hj, by simpa using e⟩, rfl⟩
    simp only at e0
    rw [e0] at this
    cases this
  contacts := by
    intro h1 hh
    obtain ⟨k, n, hk, rfl⟩ := mem_horizons.1 hh
    exact ⟨by simp, by simp⟩
  outside := by intro i hi; cases hi
  blocks := by
    intro b1 hb1
    obtain ⟨k, b, hk, rfl⟩ := mem_blocks.1 hb1
    have hb := List.mem_of_getElem? hk
    refine ⟨(c.blockNames b hb).1, (c.blockNames b hb).2, relations_once h hb, ?_, c.relations b hb, ?_⟩
    · intro i hi
      rw [order_range h]
      exact List.mem_range.2 (relations_known h hb i hi)
    · exact hs k b hk
  units := by intro u hu; cases hu
  faultBlocks := by intro u hu; cases hu
  size := by
    rw [order_range h]
    have : (toMl ids starts [] L).blocks.length = L.blocks.length := by simp [toMl]
    rw [this, List.length_range]
    exact c.size
  points := by rw [nbPoints_toMl h]; exact c.points

/-! ## What is loaded from the `.ml` file -/

/-- The block of the second model has the same surfaces. -/
def SameRelations (b : RBlock D) (b' : Ml.RBlock) : Prop :=
  b'.name = Ml.componentName b.name ∧ b'.boundaries.Perm b.boundaries ∧ b'.internals.Perm b.internals

/-- The surfaces, horizons and blocks of a model loaded from a `.lso` file are those of a model loaded from a `.ml` file. -/
structure Converted (L : Lso.Loaded D) (L' : Ml.Loaded D) : Prop where
  name : L'.name = L.name
  surfaces : L'.surfaces = L.surfaces.map RSurface.name
  meshes : L'.meshes = L.surfaces.zipIdx.map fun e => (e.2, (pointsAt L.solid e.1.vertices).map Pt.round, e.1.triangles.map toTri)
  horizons : L'.horizons = L.horizons.zipIdx.map fun e => (.conformal, e.1, ranksOf L.surfaces e.2)
  blocks : List.Forall₂ SameRelations L.blocks L'.blocks

theorem map_rank (h : loadLso f = .ok L) {l : List Nat} (hl : ∀ i ∈ l, i < L.surfaces.length) : l.map (Ml.rank (toMl ids starts [] L)) = l := by
  conv => rhs; rw [← List.map_id l]
  exact List.map_congr_left fun i hi => rank_self h (hl i hi)

theorem ranksOf_lt {rs : List RSurface} {k : Nat} : ∀ i ∈ ranksOf rs k, i < rs.length := by
  intro i hi
  unfold ranksOf at hi
  obtain ⟨e, he, rfl⟩ := List.mem_map.1 hi
  exact (List.getElem?_eq_some_iff.1 (mem_zipIdx'.1 (List.mem_filter.1 he).1)).1

theorem surfaceAt_toMl {j : Nat} {r : RSurface} (hr : L.surfaces[j]? = some r) : Ml.surfaceAt (toMl ids starts ext L) j =
    { id := j, name := r.name, points := pointsAt L.solid r.vertices, triangles := r.triangles.map toTri, starts := starts j } := by
  have hj : j ∈ (toMl ids starts ext L).surfaces.map Ml.Surface.id := by
    rw [surfaces_ids]; exact List.mem_range.2 (List.getElem?_eq_some_iff.1 hr).1
  obtain ⟨j', r', hr', e⟩ := mem_surfaces.1 (Ml.surfaceAt_mem hj)
  have hid : (Ml.surfaceAt (toMl ids starts ext L) j).id = j := Ml.surfaceAt_id hj
  rw [e] at hid
  simp only at hid
  subst hid
  rw [hr] at hr'
  cases hr'
  exact e

/-- **C188.** A model loaded from a `.lso` file in which no model boundary has been made is saved to a `.ml` file, and the model loaded from it has the same
surfaces in the same order with the same meshes, the same horizons, and blocks with the same boundaries and internal surfaces. -/
theorem converted_partial [LawfulNum D] (hp : Ml.PlainNumbers D) (h : loadLso f = .ok L) (c : Convertible L) {sides : Sides.AllSides}
    (hs : HasSides sides ids L) (hst : HasStarts starts L) :
    ∃ (f' : File) (L' : Ml.Loaded D), Ml.saveMl (toMl ids starts [] L) sides = .ok f' ∧ Ml.loadMl f' = .ok L' ∧ Converted L L' := by
  obtain ⟨f', L', h1, h2, k⟩ := MlRoundTrip.round_trip hp (good h c hs hst)
  obtain ⟨hsort, hname⟩ := surfaces_sorted h
  refine ⟨f', L', h1, h2, k.name, ?_, ?_, ?_, ?_⟩
  · rw [k.surfaceNames, unclassified_none h]
    have e1 : (toMl ids starts [] L).boundaries = [] := rfl
    have e2 : Ml.faultsOf (toMl ids starts [] L) = [] := rfl
    have e3 : Ml.horizonsOf (toMl ids starts [] L) = (toMl ids starts [] L).horizons := rfl
    rw [e1, e2, e3, List.flatMap_nil, List.flatMap_nil, List.nil_append, List.nil_append, List.map_nil, List.append_nil]
    have e4 : (toMl ids starts [] L).horizons.flatMap (fun h => h.2.2.map fun _ => Ml.nameOf h.2.1) =
        (toMl ids starts [] L).horizons.flatMap fun h => h.2.2.map fun i => ((L.surfaces[i]?).map RSurface.name).getD [] := by
      refine LsoStable.flatMap_congr fun h1 hh => ?_
      obtain ⟨j, n, hj, rfl⟩ := mem_horizons.1 hh
      refine List.map_congr_left fun i hi => ?_
      simp only at hi
      unfold ranksOf at hi
      obtain ⟨e, he, rfl⟩ := List.mem_map.1 hi
      obtain ⟨he1, he2⟩ := List.mem_filter.1 he
      have hr := mem_zipIdx'.1 he1
      have hn := hname e.1 (List.mem_of_getElem? hr)
      have he2 : e.1.horizon = j := by simpa using he2
      rw [he2, hj] at hn
      rw [hr]
      cases hn
      rfl
    rw [e4, ← List.map_flatMap, horizons_flat h]
    refine List.ext_getElem? fun i => ?_
    rw [List.getElem?_map, List.getElem?_map]
    by_cases hi : i < L.surfaces.length
    · rw [List.getElem?_range hi, List.getElem?_eq_getElem hi]; simp [hi]
    · rw [List.getElem?_eq_none (by simpa using hi), List.getElem?_eq_none (by simpa using hi)]; rfl
  · rw [k.meshes, order_range h, List.range_eq_range', ← List.zipIdx_map_snd 0 L.surfaces, List.map_map]
    refine List.map_congr_left fun e he => ?_
    have hr := mem_zipIdx'.1 he
    simp only [Function.comp]
    rw [surfaceAt_toMl hr, rank_self h (List.getElem?_eq_some_iff.1 hr).1]
  · rw [k.horizons]
    change (L.horizons.zipIdx.map fun e => (Ml.Contact.conformal, some e.1, ranksOf L.surfaces e.2)).map _ = _
    rw [List.map_map]
    refine List.map_congr_left fun e _ => ?_
    simp only [Function.comp, Ml.nameOf, Option.getD_some]
    rw [map_rank h ranksOf_lt]
  · have hb := k.blocks
    have e : (toMl ids starts [] L).blocks = L.blocks.zipIdx.map fun e => ⟨ids e.2, e.1.name, e.1.boundaries, e.1.internals⟩ := rfl
    rw [e, List.forall₂_map_left_iff] at hb
    rw [← List.zipIdx_map_fst 0 L.blocks, List.forall₂_map_left_iff]
    have := forall₂_both hb (P := fun e => e.1 ∈ L.blocks) (Q := fun _ => True) (fun e he => List.fst_mem_of_mem_zipIdx he) fun _ _ => trivial
    refine this.imp fun e b' hh => ?_
    obtain ⟨⟨h1, h2, h3⟩, hm, -⟩ := hh
    simp only at h1 h2 h3
    have hk := relations_known h hm
    rw [map_rank h fun i hi => hk i (List.mem_append_left _ hi)] at h2
    rw [map_rank h fun i hi => hk i (List.mem_append_right _ hi)] at h3
    exact ⟨h1, h2, h3⟩

/-! ## Model boundaries -/

/-- A tetrahedron with two of its facets, each in a horizon. -/
def small : File :=
  [cs!"GOCAD LightTSolid 1", cs!"HEADER {", cs!"name: m", cs!"}", cs!"GOCAD_ORIGINAL_COORDINATE_SYSTEM", cs!"END_ORIGINAL_COORDINATE_SYSTEM",
    cs!"VRTX 1 0 0 0", cs!"VRTX 2 1 0 0", cs!"VRTX 3 0 1 0", cs!"VRTX 4 0 0 1",
    cs!"TETRA 1 2 3 4", cs!"# CTETRA A top top top top", cs!"MODEL", cs!"SURFACE top", cs!"TFACE 1", cs!"KEYVERTICES 1 2 3", cs!"TRGL 1 2 3",
    cs!"SURFACE base", cs!"TFACE 2", cs!"KEYVERTICES 1 2 4", cs!"TRGL 1 2 4", cs!"MODEL_REGION A +1", cs!"END"]

/-- What is loaded from it. -/
def smallModel : Lso.Loaded Int where
  name := some cs!"m"
  solid := { points := [⟨0, 0, 0⟩, ⟨1, 0, 0⟩, ⟨0, 1, 0⟩, ⟨0, 0, 1⟩], ids := [0, 1, 2, 3], nbUnique := 4, tetras := [[0, 1, 2, 3]], names := [cs!"A"] }
  horizons := [cs!"top", cs!"base"]
  surfaces := [⟨cs!"top", 0, [0, 1, 2], [[0, 1, 2]]⟩, ⟨cs!"base", 1, [0, 1, 3], [[0, 1, 2]]⟩]
  blocks := [{ name := cs!"A", vertices := [0, 1, 2, 3], tetras := [[0, 1, 2, 3]], boundaries := [0, 1] }]

theorem small_loads : loadLso small = .ok smallModel := by decide +kernel

/-- Its sides: the surfaces bound the block and the outside. -/
def smallSides : Sides.AllSides := { regions := [((0, 0), true), ((0, 1), false)], outside := [(0, true), (1, false)] }

theorem small_convertible : Convertible smallModel where
  name := by intro n hn; cases hn; decide
  horizonNames := by decide
  distinct := by decide
  faces := by decide
  triangles := by decide
  blockNames := by decide
  relations := by decide
  size := by decide
  points := by decide

theorem small_sides : HasSides smallSides id smallModel := by
  intro k b hk j hj
  match k, hk with
  | 0, hk => cases hk; revert j; decide

/-- Not vacuous: the hypotheses hold for a file. -/
example : loadLso small = .ok smallModel ∧ Convertible smallModel ∧ HasSides smallSides id smallModel ∧ HasStarts (fun _ => []) smallModel :=
  ⟨small_loads, small_convertible, small_sides, fun _ _ _ _ h => by cases h⟩

/-- Conversion with any model boundaries made of surfaces of the model. -/
def AlwaysConverted (D : Type) [Num D] : Prop := ∀ (f : File) (L : Lso.Loaded D) (ids : Nat → Nat) (starts : Nat → List (Nat × Nat)) (ext : List (Str × List Nat))
  (sides : Sides.AllSides), loadLso f = .ok L → Convertible L → HasSides sides ids L → HasStarts starts L →
    (∀ b ∈ ext, GoodName b.1 ∧ b.2 ≠ [] ∧ ∀ i ∈ b.2, i < L.surfaces.length ∧ (Sides.find sides.outside i).isSome = true) →
    ∃ (f' : File) (L' : Ml.Loaded D), Ml.saveMl (toMl ids starts ext L) sides = .ok f' ∧ Ml.loadMl f' = .ok L' ∧ Converted L L'

/-! ### The groups of a saved model -/

theorem mapM'_names {A : Type} (g : A → Option Str) {l : List A} : ∀ {r : List Str}, Res.mapM' (fun a => Ml.nameValue (g a)) l = .ok r → r = l.map fun a => Ml.nameOf (g a) := by
  induction l with
  | nil => intro r h; cases h; rfl
  | cons a l ih =>
    intro r h
    rw [Res.mapM'_cons] at h
    obtain ⟨n, hn, h⟩ := bind_eq_ok.1 h
    obtain ⟨ns, hns, h⟩ := bind_eq_ok.1 h
    cases h
    have : Ml.nameOf (g a) = n := by
      unfold Ml.nameValue at hn
      cases hg : g a with
      | none => rw [hg] at hn; cases hn
      | some m => rw [hg] at hn; cases hn; rfl
    rw [ih hns, List.map_cons, this]

theorem tsurfs_lines {m : Ml.Model D} {ls : File} (h : Ml.writeTsurfs m = .ok ls) : ls = (Ml.tsurfNames m).map fun n => cs!"TSURF" ++ spaced [n] := by
  unfold Ml.writeTsurfs at h
  obtain ⟨fs, hf, h⟩ := bind_eq_ok.1 h
  obtain ⟨hs, hh, h⟩ := bind_eq_ok.1 h
  cases h
  rw [mapM'_names (fun f : Ml.FaultType × Option Str × List Nat => f.2.1) hf, mapM'_names (fun f : Ml.Contact × Option Str × List Nat => f.2.1) hh]
  rfl

/-- The lines announce the names. -/
theorem records_tsurfs {ns : List Str} (hn : ∀ n ∈ ns, GoodName n) {rest objects : File} : ∀ {rs : List MlOutcomes.Record},
    MlOutcomes.Records (ns.map (fun n => cs!"TSURF" ++ spaced [n]) ++ rest) rs objects → ∃ qs, MlOutcomes.names rs = ns ++ MlOutcomes.names qs := by
  induction ns with
  | nil => intro rs _; exact ⟨rs, rfl⟩
  | cons n ns ih =>
    intro rs h
    have hg := hn n List.mem_cons_self
    have hsp : split (cs!"TSURF" ++ spaced [n]) = cs!"TSURF" :: split n := by
      rw [split_kw_spaced' (by decide)]; simp
    rw [List.map_cons, List.cons_append] at h
    generalize hl : cs!"TSURF" ++ spaced [n] = l at h hsp
    cases h with
    | done h => rw [← hl] at h; cases h
    | tsurf h h1 h2 =>
      obtain ⟨qs, e⟩ := ih (fun a ha => hn a (List.mem_cons_of_mem _ ha)) h2
      rw [hsp] at h1
      obtain ⟨-, h1⟩ := List.cons.inj h1
      refine ⟨qs, ?_⟩
      rw [← h1, readName_split ⟨hg.2.1, hg.2.2⟩, List.cons_append, ← e]
      rfl
    | tface h h1 h2 => rw [hsp] at h1; exact absurd (List.cons.inj h1).1 (by decide)
    | outside h h1 h2 => rw [hsp] at h1; exact absurd (List.cons.inj h1).1 (by decide)
    | block h h1 h2 => rw [hsp] at h1; exact absurd (List.cons.inj h1).1 (by decide)
    | layer h h1 h2 => rw [hsp] at h1; exact absurd (List.cons.inj h1).1 (by decide)
    | faultBlock h h1 h2 => rw [hsp] at h1; exact absurd (List.cons.inj h1).1 (by decide)
    | other h h1 h2 => rw [hsp] at h1; rw [← (List.cons.inj h1).1] at h2; exact absurd h2 (by decide)

/-- Whatever the model saved, when the file loads its collections and its surfaces in no collection all have different names, and each name is the name of a surface loaded. -/
theorem groups_loaded {m : Ml.Model D} {sides : Sides.AllSides} {f : File} {L' : Ml.Loaded D} (hm : ∀ n, m.name = some n → GoodObjectName n)
    (hn : ∀ n ∈ Ml.tsurfNames m, GoodName n) (h : Ml.saveMl m sides = .ok f) (h' : Ml.loadMl f = .ok L') :
    (Ml.tsurfNames m).Nodup ∧ ∀ n ∈ Ml.tsurfNames m, n ∈ L'.surfaces := by
  unfold Ml.saveMl at h
  obtain ⟨comps, hc, h⟩ := bind_eq_ok.1 h
  obtain ⟨surfs, -, h⟩ := bind_eq_ok.1 h
  cases h
  unfold Ml.writeComponents at hc
  obtain ⟨ts, ht, hc⟩ := bind_eq_ok.1 hc
  obtain ⟨fs, -, hc⟩ := bind_eq_ok.1 hc
  obtain ⟨us, -, hc⟩ := bind_eq_ok.1 hc
  obtain ⟨bs, -, hc⟩ := bind_eq_ok.1 hc
  obtain ⟨ys, -, hc⟩ := bind_eq_ok.1 hc
  cases hc
  have e0 := tsurfs_lines ht
  subst e0
  obtain ⟨⟨title, body, titled, name, afterHeader, header, crs, afterCrs, system, records, objects, recordsRead, fine, distinct, known⟩, hP, hd, hs⟩ := MlOutcomes.groups_of_loaded h'
  simp only at hd hs
  have ht := WlOutcomes.goto_iff.2 titled
  rw [List.append_assoc, List.append_assoc, List.append_assoc, List.singleton_append, gotoKeyword_here (by rfl)] at ht
  obtain ⟨-, rfl⟩ := Prod.mk.inj (Res.ok.inj ht)
  rw [readHeader_good hm] at header
  obtain ⟨-, rfl⟩ := Prod.mk.inj (Res.ok.inj header)
  rw [readCrs_default] at system
  obtain ⟨-, rfl⟩ := Prod.mk.inj (Res.ok.inj system)
  simp only [List.append_assoc] at recordsRead
  obtain ⟨qs, e⟩ := records_tsurfs hn recordsRead
  rw [e] at hd hs
  exact ⟨(List.nodup_append.1 hd).1, fun n h => hs n (List.mem_append_left _ h)⟩

/-- With the two surfaces, which bound the only block, in a model boundary, the file that is written is refused: both horizons are announced, but have no surface. -/
theorem boundary_refused : ∃ f', Ml.saveMl (toMl id (fun _ => []) [(cs!"outer", [0, 1])] smallModel) smallSides = .ok f' ∧ (Ml.loadMl f' : Res (Ml.Loaded Int)) = .throw := by
  have h : (match Ml.saveMl (toMl id (fun _ => []) [(cs!"outer", [0, 1])] smallModel) smallSides with
    | .ok f' => (match (Ml.loadMl f' : Res (Ml.Loaded Int)) with | .throw => true | _ => false)
    | _ => false) = true := by decide +kernel
  cases e : Ml.saveMl (toMl id (fun _ => []) [(cs!"outer", [0, 1])] smallModel) smallSides with
  | ok f' =>
    rw [e] at h
    refine ⟨f', rfl, ?_⟩
    simp only at h
    cases e' : (Ml.loadMl f' : Res (Ml.Loaded Int)) <;> rw [e'] at h
    all_goals first | rfl | cases h
  | throw => rw [e] at h; cases h
  | ub => rw [e] at h; cases h
  | diverge => rw [e] at h; cases h

/-- Models loaded from `.lso` files are not always kept by `.ml` files. -/
theorem not_always_converted : ¬AlwaysConverted Int := by
  intro h
  obtain ⟨f', L', h1, h2, -⟩ := h small smallModel id (fun _ => []) [(cs!"outer", [0, 1])] smallSides small_loads small_convertible small_sides
    (fun _ _ _ _ h => by cases h) (by decide)
  obtain ⟨f'', h3, h4⟩ := boundary_refused
  rw [h1] at h3
  cases h3
  rw [h2] at h4
  cases h4

theorem horizonNames_toMl : (Ml.horizonsOf (toMl ids starts ext L)).map (fun h => Ml.nameOf h.2.1) = L.horizons := by
  change (L.horizons.zipIdx.map fun e => (Ml.Contact.conformal, some e.1, ranksOf L.surfaces e.2)).map _ = _
  rw [List.map_map]
  exact List.zipIdx_map_fst 0 L.horizons

/-- As soon as there is a model boundary the model is not kept, whatever the file it comes from. -/
theorem never_converted (h : loadLso f = .ok L) (c : Convertible L) {sides : Sides.AllSides} (hext : ∀ b ∈ ext, GoodName (Ml.componentName b.1)) (hne : ext ≠ [])
    {f' : File} {L' : Ml.Loaded D} (hs : Ml.saveMl (toMl ids starts ext L) sides = .ok f') (hl : Ml.loadMl f' = .ok L') : ¬Converted L L' := by
  intro k
  obtain ⟨b, hb⟩ := List.exists_mem_of_ne_nil _ hne
  have e : Ml.tsurfNames (toMl ids starts ext L) = ext.map (fun b => Ml.componentName b.1) ++ L.horizons := by
    unfold Ml.tsurfNames
    rw [unclassified_none h, horizonNames_toMl]
    simp [toMl, Ml.faultsOf]
  obtain ⟨h1, h2⟩ := groups_loaded c.name (by
    rw [e]
    intro n hn
    rcases List.mem_append.1 hn with hn | hn
    · obtain ⟨b, hb, rfl⟩ := List.mem_map.1 hn
      exact hext b hb
    · exact c.horizonNames n hn) hs hl
  rw [e] at h1 h2
  have hm : Ml.componentName b.1 ∈ ext.map (fun b => Ml.componentName b.1) := List.mem_map.2 ⟨b, hb, rfl⟩
  have h3 := h2 _ (List.mem_append_left _ hm)
  rw [k.surfaces] at h3
  obtain ⟨r, hr, hrn⟩ := List.mem_map.1 h3
  have h4 := List.mem_of_getElem? ((surfaces_sorted h).2 r hr)
  rw [hrn] at h4
  exact (List.nodup_append.1 h1).2.2 _ hm _ h4 rfl

/-- A model loaded from a `.lso` file is kept by `.ml` files exactly when it has no model boundary. -/
theorem converted_iff [LawfulNum D] (hp : Ml.PlainNumbers D) (h : loadLso f = .ok L) (c : Convertible L) {sides : Sides.AllSides}
    (hs : HasSides sides ids L) (hst : HasStarts starts L) (hext : ∀ b ∈ ext, GoodName (Ml.componentName b.1)) :
    (∃ (f' : File) (L' : Ml.Loaded D), Ml.saveMl (toMl ids starts ext L) sides = .ok f' ∧ Ml.loadMl f' = .ok L' ∧ Converted L L') ↔ ext = [] := by
  constructor
  · rintro ⟨f', L', h1, h2, k⟩
    by_contra hne
    exact never_converted h c hext hne h1 h2 k
  · rintro rfl
    exact converted_partial hp h c hs hst

end Verif.Props.LsoToMl
