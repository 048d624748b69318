import Verif.Model.Saveable
import Verif.Props.LsoCases
import Verif.Props.MlCases

/-!
# Models that can be saved

For each format the exact condition under which a model is saved, to compare with `is_saveable`.
-/

namespace Verif.Props.Saveable

open Verif Verif.Res Verif.Saveable

/-- The operation returns. -/
def Returns {α : Type} (x : Res α) : Prop := ∃ a, x = .ok a

theorem returns_bind {α β : Type} {x : Res α} {f : α → Res β} : Returns (x >>= f) ↔ ∃ a, x = .ok a ∧ Returns (f a) := by
  constructor
  · rintro ⟨b, hb⟩
    obtain ⟨a, h1, h2⟩ := bind_eq_ok.1 hb
    exact ⟨a, h1, b, h2⟩
  · rintro ⟨a, h1, b, h2⟩
    exact ⟨b, bind_eq_ok.2 ⟨a, h1, h2⟩⟩

theorem returns_mapM' {α β : Type} {f : α → Res β} {l : List α} : Returns (mapM' f l) ↔ ∀ a ∈ l, Returns (f a) := by
  induction l with
  | nil => exact ⟨by simp, fun _ => ⟨[], rfl⟩⟩
  | cons a l ih =>
    rw [mapM'_cons, returns_bind]
    constructor
    · rintro ⟨b, hb, h⟩
      rw [returns_bind] at h
      obtain ⟨bs, hbs, _⟩ := h
      intro x hx
      rcases List.mem_cons.1 hx with rfl | hx
      · exact ⟨b, hb⟩
      · exact ih.1 ⟨bs, hbs⟩ x hx
    · intro h
      obtain ⟨b, hb⟩ := h a (by simp)
      obtain ⟨bs, hbs⟩ := ih.2 fun x hx => h x (by simp [hx])
      exact ⟨b, hb, returns_bind.2 ⟨bs, hbs, _, rfl⟩⟩

theorem returns_foldM' {α β : Type} {f : β → α → Res β} {l : List α} (h : ∀ s, ∀ a ∈ l, Returns (f s a)) : ∀ s, Returns (foldM' f s l) := by
  induction l with
  | nil => exact fun s => ⟨s, rfl⟩
  | cons a l ih =>
    intro s
    obtain ⟨s', hs'⟩ := h s a (by simp)
    rw [foldM'_cons, returns_bind]
    exact ⟨s', hs', ih (fun s x hx => h s x (by simp [hx])) s'⟩

section LsoFiles

open Verif.Lso

variable {D : Type} [Num D]

/-- What holds of any model: a vertex of a mesh has one unique vertex, and the vertices of blocks at the unique vertices exist. -/
structure Sound (m : Lso.Model D) : Prop where
  once : Once m
  points : ∀ l ∈ m.uniques, ∀ c ∈ l, c.isBlock = true → ∃ p, PointOf m c p

/-- The condition for a model to be saved: every unique vertex is at a block, the vertices of tetrahedra have a unique vertex, the surfaces of the
collections exist and have triangles, and the first boundary of every block has a side and is in a collection. -/
structure LsoSaved (m : Lso.Model D) (sides : Sides.AllSides) : Prop where
  vertices : ∀ l ∈ m.uniques, ∃ c ∈ l, c.isBlock = true
  corners : ∀ b ∈ m.blocks, ∀ t ∈ b.tetras, ∀ v ∈ t, ∃ l ∈ m.uniques, (⟨true, b.id, v⟩ : Cmv) ∈ l
  faces : ∀ c ∈ Lso.collections m, ∀ i ∈ c.2, ∃ s, m.surfaces.find? (fun s => s.id = i) = some s ∧ s.triangles ≠ []
  regions : ∀ b ∈ m.blocks, ∃ s, b.boundaries[0]? = some s ∧ (Sides.find sides.regions (b.id, s)).isSome = true ∧ ∃ c ∈ Lso.collections m, s ∈ c.2

theorem block_of_main {l : List Cmv} {x : Cmv} (h : mainOf l = [x]) : x ∈ l ∧ x.isBlock = true := by
  have : x ∈ blockVertices l := mem_blockVertices_iff.2 (Or.inl (by rw [h]; simp))
  exact List.mem_filter.1 this

theorem blockVertices_ne {l : List Cmv} (h : ∃ c ∈ l, c.isBlock = true) : blockVertices l ≠ [] := by
  obtain ⟨c, hc, hb⟩ := h
  intro e
  have : c ∈ blockVertices l := List.mem_filter.2 ⟨hc, hb⟩
  rw [e] at this
  simp at this

theorem writeVertices_returns {m : Lso.Model D} (g : Sound m) (h : ∀ l ∈ m.uniques, ∃ c ∈ l, c.isBlock = true) : Returns (writeVertices m) := by
  have key : ∀ (cs : List (List Cmv)), (∀ l ∈ cs, l ∈ m.uniques) → ∀ st v, Returns (writeVerticesFrom m st v cs) := by
    intro cs
    induction cs with
    | nil => intro _ st v; exact ⟨st, rfl⟩
    | cons c cs ih =>
      intro hc st v
      have hcm := hc c (by simp)
      obtain ⟨x, hx, hx'⟩ := mainOf_eq (blockVertices_ne (h c hcm))
      obtain ⟨hxc, hxb⟩ := block_of_main hx'
      obtain ⟨p, b, hb, hp⟩ := g.points c hcm x hxc hxb
      unfold writeVerticesFrom
      rw [returns_bind]
      have e1 : Res.index (c.filter Cmv.isBlock) (firstBlock (c.filter Cmv.isBlock)) = .ok x := index_eq_ok.2 hx
      have e2 : blockOf m x.id = .ok b := by unfold blockOf; rw [hb]; rfl
      have e3 : Res.index b.points x.vertex = .ok p := index_eq_ok.2 hp
      have hw : Returns (writeVertex m st v c) := by
        unfold writeVertex
        simp only [e1, e2, e3, ok_bind, pure_eq]
        exact ⟨_, rfl⟩
      obtain ⟨st', hw⟩ := hw
      exact ⟨st', hw, ih (fun l hl => hc l (by simp [hl])) _ _⟩
  unfold writeVertices
  rw [returns_bind]
  obtain ⟨st, hst⟩ := key m.uniques (fun _ h => h) { nb := m.uniques.length } 0
  exact ⟨st, hst, _, rfl⟩

/-- What is written before the regions. -/
theorem before_regions {m : Lso.Model D} (g : Sound m) (hv : ∀ l ∈ m.uniques, ∃ c ∈ l, c.isBlock = true)
    (hc0 : ∀ b ∈ m.blocks, ∀ t ∈ b.tetras, ∀ v ∈ t, ∃ l ∈ m.uniques, (⟨true, b.id, v⟩ : Cmv) ∈ l)
    (hf0 : ∀ c ∈ Lso.collections m, ∀ i ∈ c.2, ∃ s, m.surfaces.find? (fun s => s.id = i) = some s ∧ s.triangles ≠ []) :
    ∃ vs vl tl st, writeVertices m = .ok (vs, vl) ∧ writeTetras m vs = .ok tl ∧
      foldM' (writeCollection m) (sstate [] []) (Lso.collections m) = .ok st := by
  obtain ⟨⟨vs, vl⟩, h1⟩ := writeVertices_returns g hv
  obtain ⟨ps, _, hm, e, _⟩ := writeVertices_ok h1
  have h2 : Returns (writeTetras m vs) := by
    unfold writeTetras
    rw [returns_bind]
    have : Returns (mapM' (fun b => mapM' (writeTetra m vs b) b.tetras) m.blocks) := by
      refine returns_mapM'.2 fun b hb => returns_mapM'.2 fun t ht => ?_
      unfold writeTetra
      rw [returns_bind]
      obtain ⟨ns, hns⟩ : Returns (mapM' (fun v => vertexNumber m vs ⟨true, b.id, v⟩) t) := by
        refine returns_mapM'.2 fun v hv => ?_
        obtain ⟨l, hl, hc⟩ := hc0 b hb t ht v hv
        rw [e]
        exact ⟨_, vertexNumber_eq g.once hm ((order_perm m).mem_iff.2 (List.mem_flatMap.2 ⟨l, hl, List.mem_filter.2 ⟨hc, rfl⟩⟩))⟩
      exact ⟨ns, hns, _, rfl⟩
    obtain ⟨ls, hls⟩ := this
    exact ⟨ls, hls, _, rfl⟩
  obtain ⟨tl, h2⟩ := h2
  have h3 : Returns (foldM' (writeCollection m) (sstate [] []) (Lso.collections m)) := by
    refine returns_foldM' (fun st c hc => ?_) _
    unfold writeCollection
    split
    · exact ⟨_, rfl⟩
    · refine returns_foldM' (fun st i hi => ?_) _
      unfold writeFace
      split
      · exact ⟨_, rfl⟩
      · obtain ⟨f, hf, ht⟩ := hf0 c hc i hi
        rw [hf]
        cases hft : f.triangles with
        | nil => exact absurd hft ht
        | cons a b => simp only [ofParse_some, ok_bind, hft, index_cons_zero]; exact ⟨_, rfl⟩
  obtain ⟨st, h3⟩ := h3
  exact ⟨vs, vl, tl, st, h1, h2, h3⟩

/-- The exact condition: a sound model is saved if and only if `LsoSaved` holds. -/
theorem lso_saved_iff {m : Lso.Model D} (g : Sound m) (sides : Sides.AllSides) : Returns (saveLso m sides) ↔ LsoSaved m sides := by
  constructor
  · rintro ⟨f, hf⟩
    have hreg := Props.LsoCases.saved_boundaries hf
    obtain ⟨⟨vs, vl⟩, h1, h2⟩ := bind_eq_ok.1 hf
    obtain ⟨tl, h3, h4⟩ := bind_eq_ok.1 h2
    obtain ⟨st, h5, h6⟩ := bind_eq_ok.1 h4
    obtain ⟨ps, _, hm, e, _⟩ := writeVertices_ok h1
    have h5' : foldM' (writeCollection m) (sstate [] []) (Lso.collections m) = .ok st := h5
    obtain ⟨hw, _⟩ := writeCollections_ok _ h5'
    refine ⟨?_, ?_, ?_, hreg⟩
    · intro l hl
      obtain ⟨x, hx⟩ := hm l hl
      exact ⟨x, block_of_main hx⟩
    · intro b hb t ht v hv
      unfold writeTetras at h3
      obtain ⟨ls, h7, _⟩ := bind_eq_ok.1 h3
      have h8 := returns_mapM'.1 ⟨ls, h7⟩ b hb
      have h9 := returns_mapM'.1 h8 t ht
      unfold writeTetra at h9
      rw [returns_bind] at h9
      obtain ⟨ns, hns, _⟩ := h9
      obtain ⟨n, hn⟩ := returns_mapM'.1 ⟨ns, hns⟩ v hv
      rw [e] at hn
      have := vertexNumber_mem hm hn
      obtain ⟨l, hl, hl'⟩ := List.mem_flatMap.1 ((order_perm m).mem_iff.1 this)
      exact ⟨l, hl, (List.mem_filter.1 hl').1⟩
    · intro c hc i hi
      have hmem := ((Props.LsoRoundTrip.kept_surfaces (Lso.collections m) []).2 i).2 ⟨by simp, c, hc, hi⟩
      obtain ⟨k, hk, hik⟩ := List.mem_flatMap.1 hmem
      exact hw k hk i hik
  · intro s
    obtain ⟨vs, vl, tl, st, h1, h2, h3⟩ := before_regions g s.vertices s.corners s.faces
    have hst := (writeCollections_ok _ h3).2
    have h4 : Returns (mapM' (Lso.writeRegion sides st.exported) m.blocks) := by
      refine returns_mapM'.2 fun b hb => ?_
      obtain ⟨i, hi, hside, c, hc, hic⟩ := s.regions b hb
      obtain ⟨side, hside⟩ := Option.isSome_iff_exists.1 hside
      have hmem := ((Props.LsoRoundTrip.kept_surfaces (Lso.collections m) []).2 i).2 ⟨by simp, c, hc, hic⟩
      have hex : (Sides.find st.exported i).isSome = true := by
        rw [hst, Sides.find_isSome]
        show (Lso.numbered 1 _).any _ = true
        rw [Lso.any_numbered]
        simpa using hmem
      obtain ⟨n, hn⟩ := Option.isSome_iff_exists.1 hex
      unfold Lso.writeRegion
      rw [index_eq_ok.2 hi, ok_bind, hside, ofParse_some, ok_bind, hn]
      exact ⟨_, rfl⟩
    obtain ⟨rl, h4⟩ := h4
    unfold saveLso
    have h3' : foldM' (writeCollection m) ({} : SState) (m.horizons ++ m.faults ++ m.boundaries) = .ok st := h3
    rw [h1, ok_bind]
    simp only [h2, h3', h4, ok_bind]
    exact ⟨_, rfl⟩

/-- The types of the meshes of a model: all as expected. -/
def allTypes : Nat → Bool := fun _ => true

theorem sound_of {m : Lso.Model D} (h1 : Once m)
    (h2 : ∀ l ∈ m.uniques, ∀ c ∈ l, c.isBlock = true → ((m.blocks.find? fun b => b.id = c.id).map fun b => decide (c.vertex < b.points.length)) = some true) : Sound m := by
  refine ⟨h1, fun l hl c hc hb => ?_⟩
  have h := h2 l hl c hc hb
  rw [Option.map_eq_some_iff] at h
  obtain ⟨b, hb, hlt⟩ := h
  have hlt := of_decide_eq_true hlt
  exact ⟨b.points[c.vertex], b, hb, List.getElem?_eq_getElem hlt⟩

/-- The two blocks, with a surface that touches none of them. -/
def withLoose : Lso.Model Int :=
  { Props.LsoNumbers.twoBlocks with
    uniques := Props.LsoNumbers.twoBlocks.uniques ++ [[⟨false, 7, 0⟩], [⟨false, 7, 1⟩], [⟨false, 7, 2⟩]]
    surfaces := [⟨9, [[0, 1, 2]]⟩, ⟨7, [[0, 1, 2]]⟩]
    horizons := [(cs!"h", [9]), (cs!"k", [7])] }

/-- "A model reported as saveable is saved" is false: an exception for a surface that is in no collection, undefined behaviour for one that touches no
block. -/
theorem lso_saveable_not_saved : (∃ (m : Lso.Model Int) (sides : Sides.AllSides), Sound m ∧ isSaveableLso m allTypes allTypes = true ∧ saveLso m sides = .throw) ∧
    ∃ (m : Lso.Model Int) (sides : Sides.AllSides), Sound m ∧ isSaveableLso m allTypes allTypes = true ∧ saveLso m sides = .ub := by
  refine ⟨⟨_, Props.LsoNumbers.twoSides, sound_of ?_ ?_, ?_, Props.LsoCases.uncollected_throws⟩, ⟨withLoose, Props.LsoNumbers.twoSides, sound_of ?_ ?_, ?_, ?_⟩⟩
  · unfold Once; decide
  · decide
  · decide
  · unfold Once; decide
  · decide
  · decide
  · decide +kernel

example : Sound Props.LsoNumbers.twoBlocks ∧ isSaveableLso Props.LsoNumbers.twoBlocks allTypes allTypes = true ∧
    Returns (saveLso Props.LsoNumbers.twoBlocks Props.LsoNumbers.twoSides) := by
  have g : Sound Props.LsoNumbers.twoBlocks := sound_of (by unfold Once; decide) (by decide)
  refine ⟨g, by decide, (lso_saved_iff g _).2 ⟨by decide, by decide, ?_, ?_⟩⟩
  · intro c hc i hi
    simp [Lso.collections, Props.LsoNumbers.twoBlocks] at hc
    subst hc
    simp at hi
    subst hi
    exact ⟨_, rfl, by decide⟩
  · intro b hb
    simp [Props.LsoNumbers.twoBlocks] at hb
    rcases hb with rfl | rfl
    · exact ⟨9, rfl, by decide, _, List.mem_append_left _ (List.mem_append_left _ (List.mem_singleton.2 rfl)), by decide⟩
    · exact ⟨9, rfl, by decide, _, List.mem_append_left _ (List.mem_append_left _ (List.mem_singleton.2 rfl)), by decide⟩

/-- The models reported as saveable: every surface has a triangle, every block a tetrahedron, and all are of the types that can be written. -/
theorem lso_reported_iff (m : Lso.Model D) (tri tet : Nat → Bool) : isSaveableLso m tri tet = true ↔
    (∀ s ∈ m.surfaces, s.triangles ≠ [] ∧ tri s.id = true) ∧ ∀ b ∈ m.blocks, b.tetras ≠ [] ∧ tet b.id = true := by
  unfold isSaveableLso
  simp [List.all_eq_true, List.length_eq_zero_iff]

/-- A sound model reported as saveable is saved if and only if its unique vertices are at blocks, the vertices of tetrahedra have unique vertices, the
surfaces of the collections exist, and the first boundary of every block has a side and is in a collection.  (Full statement: it is saved.) -/
theorem lso_saveable_partial {m : Lso.Model D} (g : Sound m) {tri tet : Nat → Bool} (h : isSaveableLso m tri tet = true) (sides : Sides.AllSides) :
    Returns (saveLso m sides) ↔ (∀ l ∈ m.uniques, ∃ c ∈ l, c.isBlock = true) ∧
      (∀ b ∈ m.blocks, ∀ t ∈ b.tetras, ∀ v ∈ t, ∃ l ∈ m.uniques, (⟨true, b.id, v⟩ : Cmv) ∈ l) ∧
      (∀ c ∈ Lso.collections m, ∀ i ∈ c.2, ∃ s ∈ m.surfaces, s.id = i) ∧
      (∀ b ∈ m.blocks, ∃ s, b.boundaries[0]? = some s ∧ (Sides.find sides.regions (b.id, s)).isSome = true ∧ ∃ c ∈ Lso.collections m, s ∈ c.2) := by
  rw [lso_saved_iff g]
  unfold isSaveableLso at h
  simp only [Bool.and_eq_true, List.all_eq_true, decide_eq_true_eq, ne_eq] at h
  constructor
  · intro s
    refine ⟨s.vertices, s.corners, ?_, s.regions⟩
    intro c hc i hi
    obtain ⟨f, hf, _⟩ := s.faces c hc i hi
    exact ⟨f, List.mem_of_find?_eq_some hf, by simpa using List.find?_some hf⟩
  · rintro ⟨h1, h2, h3, h4⟩
    refine ⟨h1, h2, ?_, h4⟩
    intro c hc i hi
    obtain ⟨f, hf, hid⟩ := h3 c hc i hi
    cases hfd : m.surfaces.find? (fun s => s.id = i) with
    | none =>
      rw [List.find?_eq_none] at hfd
      exact absurd (by simpa using hid) (hfd f hf)
    | some x =>
      refine ⟨x, rfl, ?_⟩
      have := (h.1 x (List.mem_of_find?_eq_some hfd)).1
      intro e
      rw [e] at this
      simp at this

end LsoFiles

section MlFiles

open Verif.Ml

variable {D : Type} [Num D]

/-- A surface whose first triangle can be written with its points. -/
def HasKey (s : Ml.Surface D) : Prop := ∃ t, s.triangles[0]? = some t ∧ t.1 < s.points.length ∧ t.2.1 < s.points.length ∧ t.2.2 < s.points.length

/-- The surfaces of the collections. -/
def Listed (m : Ml.Model D) (i : Nat) : Prop :=
  (∃ b ∈ m.boundaries, i ∈ b.2) ∨ (∃ f ∈ faultsOf m, i ∈ f.2.2) ∨ ∃ h ∈ horizonsOf m, i ∈ h.2.2

/-- The surfaces that have a number. -/
def Numbered (m : Ml.Model D) (i : Nat) : Prop := Listed m i ∨ ∃ s ∈ unclassified m, s.id = i

/-- The condition for a model to be saved. -/
structure MlSaved (m : Ml.Model D) (sides : Sides.AllSides) : Prop where
  faultNames : ∀ f ∈ faultsOf m, f.2.1.isSome = true
  horizonNames : ∀ h ∈ horizonsOf m, h.2.1.isSome = true
  contacts : ∀ h ∈ horizonsOf m, h.1 ≠ .erosion ∧ h.1 ≠ .baselap
  items : ∀ i, Listed m i → ∃ s, m.surfaces.find? (fun s => s.id = i) = some s ∧ HasKey s
  loose : ∀ s ∈ unclassified m, HasKey s
  outside : ∀ b ∈ m.boundaries, ∀ i ∈ b.2, (Sides.find sides.outside i).isSome = true
  boundaries : ∀ b ∈ m.blocks, ∀ i ∈ b.boundaries, (Sides.find sides.regions (b.id, i)).isSome = true ∧ Numbered m i
  internals : ∀ b ∈ m.blocks, ∀ i ∈ b.internals, Numbered m i
  layers : m.isBRep = false → ∀ l ∈ m.units ++ m.faultBlocks, l.1.isSome = true ∧ ∀ i ∈ l.2, ∃ b ∈ m.blocks, b.id = i

theorem returns_index {α : Type} {l : List α} {i : Nat} : Returns (Res.index l i) ↔ i < l.length := by
  constructor
  · rintro ⟨a, h⟩
    exact (List.getElem?_eq_some_iff.1 (index_eq_ok.1 h)).1
  · intro h
    exact ⟨_, index_of_lt h⟩

theorem returns_pure {α β : Type} {x : Res α} {f : α → β} : Returns (x >>= fun a => pure (f a)) ↔ Returns x := by
  rw [returns_bind]
  exact ⟨fun ⟨a, h, _⟩ => ⟨a, h⟩, fun ⟨a, h⟩ => ⟨a, h, _, rfl⟩⟩

theorem returns_parse {α : Type} {o : Option α} : Returns (Res.ofParse o) ↔ o.isSome = true := by
  cases o with
  | none => exact ⟨fun ⟨a, h⟩ => by simp at h, by simp⟩
  | some a => exact ⟨fun _ => rfl, fun _ => ⟨a, rfl⟩⟩

theorem keyLine_returns {s : Ml.Surface D} {v : Nat} : Returns (keyLine s v) ↔ v < s.points.length := by
  unfold keyLine
  rw [returns_pure, returns_index]

theorem keyTriangle_returns {s : Ml.Surface D} : Returns (keyTriangle s) ↔ HasKey s := by
  unfold keyTriangle HasKey
  rw [returns_bind]
  constructor
  · rintro ⟨t, ht, h⟩
    rw [returns_bind] at h
    obtain ⟨a, ha, h⟩ := h
    rw [returns_bind] at h
    obtain ⟨b, hb, h⟩ := h
    rw [returns_bind] at h
    obtain ⟨c, hc, _⟩ := h
    exact ⟨t, index_eq_ok.1 ht, keyLine_returns.1 ⟨a, ha⟩, keyLine_returns.1 ⟨b, hb⟩, keyLine_returns.1 ⟨c, hc⟩⟩
  · rintro ⟨t, ht, h1, h2, h3⟩
    refine ⟨t, index_eq_ok.2 ht, ?_⟩
    obtain ⟨a, ha⟩ := keyLine_returns.2 h1
    obtain ⟨b, hb⟩ := keyLine_returns.2 h2
    obtain ⟨c, hc⟩ := keyLine_returns.2 h3
    rw [ha, ok_bind, hb, ok_bind, hc]
    exact ⟨_, rfl⟩

theorem writeFace_returns {st : Faces} {kind name : Str} {s : Ml.Surface D} : Returns (Ml.writeFace st kind name s) ↔ HasKey s := by
  unfold Ml.writeFace
  rw [returns_pure, keyTriangle_returns]

/-- The surface has a number in the state. -/
def Has (st : Faces) (i : Nat) : Prop := (Sides.find st.comps i).isSome = true

theorem has_any {st : Faces} {i : Nat} : st.comps.any (fun e => e.1 = i) = true ↔ Has st i := by
  unfold Has
  rw [Sides.find_isSome]

theorem writeFace_has {st st' : Faces} {kind name : Str} {s : Ml.Surface D} (h : Ml.writeFace st kind name s = .ok st') (i : Nat) :
    Has st' i ↔ Has st i ∨ s.id = i := by
  unfold Ml.writeFace at h
  obtain ⟨key, _, h⟩ := bind_eq_ok.1 h
  cases h
  unfold Has
  simp only [Sides.find_emplace, Option.isSome_or, Bool.or_eq_true]
  by_cases hk : s.id = i <;> simp [hk]

/-- The surface can be written. -/
def Fine (m : Ml.Model D) (i : Nat) : Prop := ∃ s, m.surfaces.find? (fun s => s.id = i) = some s ∧ HasKey s

theorem surfaceOf_ok {m : Ml.Model D} {i : Nat} {s : Ml.Surface D} : surfaceOf m i = .ok s ↔ m.surfaces.find? (fun s => s.id = i) = some s := by
  unfold surfaceOf
  exact Lso.ofParse_eq_ok

theorem writeItem_ok {m : Ml.Model D} {kind name : Res Str} {st st' : Faces} {i : Nat} (h : Ml.writeItem m kind name st i = .ok st') :
    (∀ j, Has st' j ↔ Has st j ∨ j = i) ∧ (Has st i ∨ Fine m i) := by
  unfold Ml.writeItem at h
  split at h
  · next ha =>
    cases h
    have ha := has_any.1 ha
    exact ⟨fun j => ⟨Or.inl, fun h => h.elim id fun e => e ▸ ha⟩, .inl ha⟩
  · obtain ⟨k, hk, h⟩ := bind_eq_ok.1 h
    obtain ⟨n, hn, h⟩ := bind_eq_ok.1 h
    obtain ⟨s, hs, h⟩ := bind_eq_ok.1 h
    have hid := surfaceOf_id hs
    exact ⟨fun j => by rw [writeFace_has h j, hid, eq_comm], .inr ⟨s, surfaceOf_ok.1 hs, writeFace_returns.1 ⟨_, h⟩⟩⟩

theorem writeItem_returns {m : Ml.Model D} {kind name : Res Str} {st : Faces} {i : Nat} (hk : Returns kind) (hn : Returns name) (hi : Fine m i) :
    Returns (Ml.writeItem m kind name st i) := by
  unfold Ml.writeItem
  split
  · exact ⟨_, rfl⟩
  · obtain ⟨k, rfl⟩ := hk
    obtain ⟨n, rfl⟩ := hn
    obtain ⟨s, hs, hk⟩ := hi
    rw [ok_bind, ok_bind, surfaceOf_ok.2 hs, ok_bind]
    exact writeFace_returns.2 hk

theorem items_ok {m : Ml.Model D} {kind name : Res Str} {is : List Nat} {st st' : Faces} (h : Res.foldM' (Ml.writeItem m kind name) st is = .ok st') :
    (∀ j, Has st' j ↔ Has st j ∨ j ∈ is) ∧ ∀ i ∈ is, Has st i ∨ Fine m i := by
  induction is generalizing st with
  | nil => cases h; simp
  | cons a is ih =>
    rw [Res.foldM'_cons] at h
    obtain ⟨st1, h1, h⟩ := bind_eq_ok.1 h
    obtain ⟨h2, h3⟩ := writeItem_ok h1
    obtain ⟨h4, h5⟩ := ih h
    refine ⟨fun j => by rw [h4, h2, List.mem_cons, or_assoc], fun i hi => ?_⟩
    rcases List.mem_cons.1 hi with rfl | hi
    · exact h3
    · rcases h5 i hi with h | h
      · rcases (h2 i).1 h with h | rfl
        · exact .inl h
        · exact h3
      · exact .inr h

theorem items_returns {m : Ml.Model D} {kind name : Res Str} {is : List Nat} (hk : Returns kind) (hn : Returns name) (hi : ∀ i ∈ is, Fine m i) (st : Faces) :
    Returns (Res.foldM' (Ml.writeItem m kind name) st is) := by
  induction is generalizing st with
  | nil => exact ⟨_, rfl⟩
  | cons a is ih =>
    rw [Res.foldM'_cons]
    obtain ⟨st1, h1⟩ := writeItem_returns (st := st) hk hn (hi a (List.mem_cons_self ..))
    rw [h1, ok_bind]
    exact ih (fun i h => hi i (List.mem_cons_of_mem _ h)) st1

theorem colls_ok {m : Ml.Model D} {cs : List (Res Str × Res Str × List Nat)} {st st' : Faces}
    (h : Res.foldM' (fun st c => Res.foldM' (Ml.writeItem m c.1 c.2.1) st c.2.2) st cs = .ok st') :
    (∀ j, Has st' j ↔ Has st j ∨ ∃ c ∈ cs, j ∈ c.2.2) ∧ ∀ c ∈ cs, ∀ i ∈ c.2.2, Has st i ∨ Fine m i := by
  induction cs generalizing st with
  | nil => cases h; simp
  | cons a cs ih =>
    rw [Res.foldM'_cons] at h
    obtain ⟨st1, h1, h⟩ := bind_eq_ok.1 h
    obtain ⟨h2, h3⟩ := items_ok h1
    obtain ⟨h4, h5⟩ := ih h
    refine ⟨fun j => by rw [h4, h2, or_assoc]; simp, fun c hc i hi => ?_⟩
    rcases List.mem_cons.1 hc with rfl | hc
    · exact h3 i hi
    · rcases h5 c hc i hi with h | h
      · rcases (h2 i).1 h with h | h
        · exact .inl h
        · exact h3 i h
      · exact .inr h

theorem colls_returns {m : Ml.Model D} {cs : List (Res Str × Res Str × List Nat)} (hcs : ∀ c ∈ cs, Returns c.1 ∧ Returns c.2.1 ∧ ∀ i ∈ c.2.2, Fine m i)
    (st : Faces) : Returns (Res.foldM' (fun st c => Res.foldM' (Ml.writeItem m c.1 c.2.1) st c.2.2) st cs) := by
  induction cs generalizing st with
  | nil => exact ⟨_, rfl⟩
  | cons a cs ih =>
    rw [Res.foldM'_cons]
    obtain ⟨hk, hn, hi⟩ := hcs a (List.mem_cons_self ..)
    obtain ⟨st1, h1⟩ := items_returns hk hn hi st
    rw [h1, ok_bind]
    exact ih (fun c h => hcs c (List.mem_cons_of_mem _ h)) st1

theorem faces_ok {kind : Str} {name : Ml.Surface D → Str} {ss : List (Ml.Surface D)} {st st' : Faces}
    (h : Res.foldM' (fun st s => Ml.writeFace st kind (name s) s) st ss = .ok st') :
    (∀ j, Has st' j ↔ Has st j ∨ ∃ s ∈ ss, s.id = j) ∧ ∀ s ∈ ss, HasKey s := by
  induction ss generalizing st with
  | nil => cases h; simp
  | cons a ss ih =>
    rw [Res.foldM'_cons] at h
    obtain ⟨st1, h1, h⟩ := bind_eq_ok.1 h
    obtain ⟨h4, h5⟩ := ih h
    refine ⟨fun j => by rw [h4, writeFace_has h1, or_assoc]; simp, ?_⟩
    rintro s hs
    rcases List.mem_cons.1 hs with rfl | hs
    · exact writeFace_returns.1 ⟨_, h1⟩
    · exact h5 s hs

theorem faces_returns {kind : Str} {name : Ml.Surface D → Str} {ss : List (Ml.Surface D)} (hs : ∀ s ∈ ss, HasKey s) (st : Faces) :
    Returns (Res.foldM' (fun st s => Ml.writeFace st kind (name s) s) st ss) := by
  induction ss generalizing st with
  | nil => exact ⟨_, rfl⟩
  | cons a ss ih =>
    rw [Res.foldM'_cons]
    obtain ⟨st1, h1⟩ := (writeFace_returns (st := st) (kind := kind) (name := name a)).2 (hs a (List.mem_cons_self ..))
    rw [h1, ok_bind]
    exact ih (fun s h => hs s (List.mem_cons_of_mem _ h)) st1

theorem mem_collections {m : Ml.Model D} {i : Nat} : (∃ c ∈ Ml.collections m, i ∈ c.2.2) ↔ Listed m i := by
  unfold Ml.collections Listed
  simp only [List.mem_append, List.mem_map]
  constructor
  · rintro ⟨c, (⟨b, hb, rfl⟩ | ⟨b, hb, rfl⟩) | ⟨b, hb, rfl⟩, hi⟩
    · exact .inl ⟨b, hb, hi⟩
    · exact .inr (.inl ⟨b, hb, hi⟩)
    · exact .inr (.inr ⟨b, hb, hi⟩)
  · rintro (⟨b, hb, hi⟩ | ⟨b, hb, hi⟩ | ⟨b, hb, hi⟩)
    · exact ⟨_, .inl (.inl ⟨b, hb, rfl⟩), hi⟩
    · exact ⟨_, .inl (.inr ⟨b, hb, rfl⟩), hi⟩
    · exact ⟨_, .inr ⟨b, hb, rfl⟩, hi⟩

theorem writeTfaces_ok {m : Ml.Model D} {st : Faces} (h : Ml.writeTfaces m = .ok st) :
    (∀ j, Has st j ↔ Numbered m j) ∧ (∀ i, Listed m i → Fine m i) ∧ ∀ s ∈ unclassified m, HasKey s := by
  unfold Ml.writeTfaces at h
  obtain ⟨st1, h1, h⟩ := bind_eq_ok.1 h
  obtain ⟨h2, h3⟩ := colls_ok h1
  obtain ⟨h4, h5⟩ := faces_ok h
  have e : ∀ i, ¬ Has {} i := fun i h => by simp [Has, Sides.find] at h
  refine ⟨fun j => ?_, fun i hi => ?_, h5⟩
  · rw [h4, h2, mem_collections]
    unfold Numbered
    exact ⟨fun h => h.imp_left fun h => h.resolve_left (e j), fun h => h.imp_left .inr⟩
  · obtain ⟨c, hc, hi⟩ := mem_collections.2 hi
    exact (h3 c hc i hi).resolve_left (e i)

theorem contact_returns {c : Contact} : Returns (contactText c) ↔ c ≠ .erosion ∧ c ≠ .baselap := by
  cases c <;> simp [contactText, Returns]

theorem mem_flat {m : Ml.Model D} {P : Nat → Prop} : (∀ i ∈ m.boundaries.flatMap Prod.snd, P i) ↔ ∀ b ∈ m.boundaries, ∀ i ∈ b.2, P i := by
  simp only [List.mem_flatMap]
  exact ⟨fun h b hb i hi => h i ⟨b, hb, hi⟩, fun h i ⟨b, hb, hi⟩ => h b hb i hi⟩

theorem atKey_returns {K V : Type} [DecidableEq K] {m : List (K × V)} {k : K} : Returns (atKey m k) ↔ (Sides.find m k).isSome = true := returns_parse

theorem returns_two {α β γ : Type} {x : Res α} {y : Res β} {f : α → β → γ} :
    Returns (x >>= fun a => y >>= fun b => pure (f a b)) ↔ Returns x ∧ Returns y := by
  rw [returns_bind]
  constructor
  · rintro ⟨a, h, h'⟩
    exact ⟨⟨a, h⟩, returns_pure.1 h'⟩
  · rintro ⟨⟨a, h⟩, h'⟩
    exact ⟨a, h, returns_pure.2 h'⟩

theorem writeUniverse_returns {m : Ml.Model D} {sides : Sides.AllSides} {comps : List (Nat × Nat)} {n : Nat} :
    Returns (writeUniverse m sides comps n) ↔
      ∀ b ∈ m.boundaries, ∀ i ∈ b.2, (Sides.find sides.outside i).isSome = true ∧ (Sides.find comps i).isSome = true := by
  unfold writeUniverse
  rw [returns_pure, returns_mapM', mem_flat]
  simp only [returns_two, atKey_returns]

theorem writeRegion_returns {sides : Sides.AllSides} {comps : List (Nat × Nat)} {n : Nat} {b : Ml.Block} :
    Returns (Ml.writeRegion sides comps n b) ↔
      (∀ i ∈ b.boundaries, (Sides.find sides.regions (b.id, i)).isSome = true ∧ (Sides.find comps i).isSome = true) ∧
        ∀ i ∈ b.internals, (Sides.find comps i).isSome = true := by
  unfold Ml.writeRegion
  rw [returns_two, returns_mapM', returns_mapM']
  simp only [returns_two, returns_pure, atKey_returns]

theorem writeBlocks_returns {sides : Sides.AllSides} {comps : List (Nat × Nat)} {bs : List Ml.Block} (n : Nat) :
    Returns (Ml.writeBlocks sides comps n bs) ↔ ∀ b ∈ bs,
      (∀ i ∈ b.boundaries, (Sides.find sides.regions (b.id, i)).isSome = true ∧ (Sides.find comps i).isSome = true) ∧
        ∀ i ∈ b.internals, (Sides.find comps i).isSome = true := by
  induction bs generalizing n with
  | nil => exact ⟨fun _ => by simp, fun _ => ⟨_, rfl⟩⟩
  | cons b bs ih =>
    unfold Ml.writeBlocks
    rw [returns_two, writeRegion_returns, ih]
    simp

theorem number_known {n : Nat} {bs : List Ml.Block} {i : Nat} : (Sides.find (blockNumbers n bs) i).isSome = true ↔ ∃ b ∈ bs, b.id = i := by
  rw [blockNumbers_eq, Sides.find_isSome, Ml.any_numbered]
  simp

theorem writeLayer_returns {k : Str} {n : Nat} {bs : List Ml.Block} {l : Option Str × List Nat} :
    Returns (writeLayer k (blockNumbers n bs) l) ↔ l.1.isSome = true ∧ ∀ i ∈ l.2, ∃ b ∈ bs, b.id = i := by
  unfold writeLayer nameValue
  rw [returns_two, returns_parse, returns_mapM']
  simp only [returns_pure, atKey_returns, number_known]

theorem writeLayers_returns {m : Ml.Model D} {n : Nat} {bs : List Ml.Block} :
    Returns (writeLayers m (blockNumbers n bs)) ↔ (m.isBRep = false → ∀ l ∈ m.units ++ m.faultBlocks, l.1.isSome = true ∧ ∀ i ∈ l.2, ∃ b ∈ bs, b.id = i) := by
  unfold writeLayers
  split
  · next h => exact ⟨fun _ h' => by simp [h] at h', fun _ => ⟨_, rfl⟩⟩
  · next h =>
    rw [returns_two, returns_mapM', returns_mapM']
    simp only [writeLayer_returns, List.mem_append]
    exact ⟨fun ⟨h1, h2⟩ _ l hl => hl.elim (h1 l) (h2 l), fun h1 => ⟨fun l hl => h1 (by simpa using h) l (.inl hl), fun l hl => h1 (by simpa using h) l (.inr hl)⟩⟩

theorem writeTsurfs_returns {m : Ml.Model D} :
    Returns (writeTsurfs m) ↔ (∀ f ∈ faultsOf m, f.2.1.isSome = true) ∧ ∀ h ∈ horizonsOf m, h.2.1.isSome = true := by
  unfold writeTsurfs nameValue
  rw [returns_two, returns_mapM', returns_mapM']
  simp only [returns_parse]

theorem forall_collections {m : Ml.Model D} {P : Res Str × Res Str × List Nat → Prop} : (∀ c ∈ Ml.collections m, P c) ↔
    (∀ b ∈ m.boundaries, P (.ok cs!"boundary", .ok (componentName b.1), b.2)) ∧ (∀ f ∈ faultsOf m, P (.ok (faultText f.1), nameValue f.2.1, f.2.2)) ∧
      ∀ h ∈ horizonsOf m, P (contactText h.1, nameValue h.2.1, h.2.2) := by
  unfold Ml.collections
  simp only [List.mem_append, List.mem_map]
  constructor
  · intro h
    exact ⟨fun b hb => h _ (.inl (.inl ⟨b, hb, rfl⟩)), fun b hb => h _ (.inl (.inr ⟨b, hb, rfl⟩)), fun b hb => h _ (.inr ⟨b, hb, rfl⟩)⟩
  · rintro ⟨h1, h2, h3⟩ c ((⟨b, hb, rfl⟩ | ⟨b, hb, rfl⟩) | ⟨b, hb, rfl⟩)
    · exact h1 b hb
    · exact h2 b hb
    · exact h3 b hb

theorem contacts_of {m : Ml.Model D} (h : Returns (writeModelSurfaces m)) : ∀ h ∈ horizonsOf m, h.1 ≠ .erosion ∧ h.1 ≠ .baselap := by
  unfold writeModelSurfaces at h
  rw [returns_pure, returns_mapM'] at h
  intro c hc
  obtain ⟨n, hn, h⟩ := returns_bind.1 ((forall_collections.1 h).2.2 c hc)
  obtain ⟨k, hk, h⟩ := returns_bind.1 h
  exact contact_returns.1 ⟨k, hk⟩

/-- The model is saved exactly under these conditions. -/
theorem ml_saved_iff (m : Ml.Model D) (sides : Sides.AllSides) : Returns (saveMl m sides) ↔ MlSaved m sides := by
  constructor
  · intro h
    unfold saveMl at h
    obtain ⟨hc, hs⟩ := returns_two.1 h
    obtain ⟨comps, hc⟩ := hc
    unfold writeComponents at hc
    obtain ⟨tsurfs, h1, hc⟩ := bind_eq_ok.1 hc
    obtain ⟨faces, h2, hc⟩ := bind_eq_ok.1 hc
    obtain ⟨uni, h3, hc⟩ := bind_eq_ok.1 hc
    obtain ⟨regions, h4, hc⟩ := bind_eq_ok.1 hc
    obtain ⟨layers, h5, hc⟩ := bind_eq_ok.1 hc
    have g1 := writeTsurfs_returns.1 ⟨_, h1⟩
    obtain ⟨g2, g3, g4⟩ := writeTfaces_ok h2
    have g5 := writeUniverse_returns.1 ⟨_, h3⟩
    have g6 := (writeBlocks_returns _).1 ⟨_, h4⟩
    have g7 := writeLayers_returns.1 ⟨_, h5⟩
    exact ⟨g1.1, g1.2, contacts_of hs, g3, g4, fun b hb i hi => (g5 b hb i hi).1, fun b hb i hi => ⟨((g6 b hb).1 i hi).1, (g2 i).1 ((g6 b hb).1 i hi).2⟩,
      fun b hb i hi => (g2 i).1 ((g6 b hb).2 i hi), g7⟩
  · intro g
    have hcs : ∀ c ∈ Ml.collections m, Returns c.1 ∧ Returns c.2.1 ∧ ∀ i ∈ c.2.2, Fine m i := by
      rw [forall_collections]
      refine ⟨fun b hb => ⟨⟨_, rfl⟩, ⟨_, rfl⟩, fun i hi => g.items i (.inl ⟨b, hb, hi⟩)⟩,
        fun f hf => ⟨⟨_, rfl⟩, returns_parse.2 (g.faultNames f hf), fun i hi => g.items i (.inr (.inl ⟨f, hf, hi⟩))⟩,
        fun f hf => ⟨contact_returns.2 (g.contacts f hf), returns_parse.2 (g.horizonNames f hf), fun i hi => g.items i (.inr (.inr ⟨f, hf, hi⟩))⟩⟩
    obtain ⟨tsurfs, h1⟩ := writeTsurfs_returns.2 ⟨g.faultNames, g.horizonNames⟩
    have h2 : Returns (writeTfaces m) := by
      unfold writeTfaces
      obtain ⟨st, h⟩ := colls_returns hcs {}
      rw [h, ok_bind]
      exact faces_returns (name := fun s => componentName s.name) g.loose st
    obtain ⟨faces, h2⟩ := h2
    obtain ⟨g2, -, -⟩ := writeTfaces_ok h2
    obtain ⟨uni, h3⟩ := (writeUniverse_returns (n := faces.next)).2 fun b hb i hi => ⟨g.outside b hb i hi, (g2 i).2 (.inl (.inl ⟨b, hb, hi⟩))⟩
    obtain ⟨regions, h4⟩ := (writeBlocks_returns (faces.next + 1)).2 fun b hb =>
      ⟨fun i hi => ⟨(g.boundaries b hb i hi).1, (g2 i).2 (g.boundaries b hb i hi).2⟩, fun i hi => (g2 i).2 (g.internals b hb i hi)⟩
    obtain ⟨layers, h5⟩ := (writeLayers_returns (n := faces.next + 1)).2 g.layers
    have h6 : Returns (writeModelSurfaces m) := by
      unfold writeModelSurfaces
      rw [returns_pure, returns_mapM']
      intro c hc
      obtain ⟨⟨k, hk⟩, ⟨n, hn⟩, hi⟩ := hcs c hc
      rw [hn, ok_bind, hk, ok_bind, returns_pure, returns_mapM']
      intro i hi'
      obtain ⟨s, hs, _⟩ := hi i hi'
      exact ⟨s, surfaceOf_ok.2 hs⟩
    unfold saveMl
    refine returns_two.2 ⟨?_, h6⟩
    unfold writeComponents
    rw [h1, ok_bind, h2, ok_bind, h3, ok_bind, h4, ok_bind, h5]
    exact ⟨_, rfl⟩

/-- The model that is written: the model itself, or its copy with boundaries. -/
def chosen (m bounded : Ml.Model D) : Ml.Model D := if m.boundaries = [] then bounded else m

theorem writeMl_eq (m bounded : Ml.Model D) (sizes : List (List Nat)) (sides : Sides.AllSides) :
    writeMl m bounded sizes sides = if isSaveableMl sizes then saveMl (chosen m bounded) sides else .throw := by
  unfold writeMl isSaveableMl chosen
  cases checkPolygons sizes with
  | false => rfl
  | true =>
    cases hb : m.boundaries with
    | nil => simp [Res.check]
    | cons a l => simp [Res.check]

/-- A surface with a polygon that is not a triangle is refused, by the check and by the writer. -/
theorem ml_polygons {m bounded : Ml.Model D} {sizes : List (List Nat)} {sides : Sides.AllSides} :
    (isSaveableMl sizes = true ↔ ∀ s ∈ sizes, ∀ n ∈ s, n = 3) ∧ ((∃ s ∈ sizes, ∃ n ∈ s, n ≠ 3) → writeMl m bounded sizes sides = .throw) := by
  have h : isSaveableMl sizes = true ↔ ∀ s ∈ sizes, ∀ n ∈ s, n = 3 := by simp [isSaveableMl, checkPolygons]
  refine ⟨h, ?_⟩
  rintro ⟨s, hs, n, hn, hne⟩
  rw [writeMl_eq, if_neg]
  exact fun h' => hne (h.1 h' s hs n hn)

/-- A model reported as saveable is saved exactly under the conditions of `MlSaved`. -/
theorem ml_saveable_partial {m bounded : Ml.Model D} {sizes : List (List Nat)} {sides : Sides.AllSides} (h : isSaveableMl sizes = true) :
    Returns (writeMl m bounded sizes sides) ↔ MlSaved (chosen m bounded) sides := by
  rw [writeMl_eq, if_pos h, ml_saved_iff]

/-- A model boundary with a surface that has no triangle. -/
def noTriangle : Ml.Model Int := { surfaces := [⟨1, cs!"s", [], [], []⟩], boundaries := [(cs!"A", [1])] }

/-- "A model reported as saveable is saved" is false: the horizons of two kinds have no keyword, the surfaces of the other collections have no number, and
a surface without triangles has no first triangle. -/
theorem ml_saveable_not_saved : (∃ (m : Ml.Model Int) (sides : Sides.AllSides), m.boundaries ≠ [] ∧ m.others = [] ∧
      isSaveableMl (m.surfaces.map fun s => s.triangles.map fun _ => 3) = true ∧ writeMl m m (m.surfaces.map fun s => s.triangles.map fun _ => 3) sides = .throw) ∧
    (∃ (m : Ml.Model Int) (sides : Sides.AllSides), m.boundaries ≠ [] ∧ m.horizons = [] ∧
      isSaveableMl (m.surfaces.map fun s => s.triangles.map fun _ => 3) = true ∧ writeMl m m (m.surfaces.map fun s => s.triangles.map fun _ => 3) sides = .throw) ∧
    ∃ (m : Ml.Model Int) (sides : Sides.AllSides), isSaveableMl [[]] = true ∧ writeMl m m [[]] sides = .ub := by
  exact ⟨⟨{ surfaces := [Props.MlCases.tri 1], boundaries := [(cs!"A", [1])], horizons := [(.erosion, some cs!"h", [1])] }, Props.MlCases.someSides,
      by decide, by decide, by decide, by decide +kernel⟩,
    ⟨Props.MlCases.otherCollection, Props.MlCases.someSides, by decide, by decide, by decide, by decide +kernel⟩,
    ⟨noTriangle, Props.MlCases.someSides, by decide, by decide +kernel⟩⟩

/-- The conditions hold for a model that is kept. -/
example : MlSaved Props.MlCases.full Props.MlCases.someSides := by
  obtain ⟨f, L, h, -, -⟩ := MlRoundTrip.round_trip Props.MlCases.plain_int Props.MlCases.full_good
  exact (ml_saved_iff _ _).1 ⟨f, h⟩

end MlFiles

end Verif.Props.Saveable
