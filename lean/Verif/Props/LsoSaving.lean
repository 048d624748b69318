import Verif.Props.Saveable

/-!
# Every outcome of saving a model to an LSO file (C66)
-/

set_option linter.unusedSectionVars false

namespace Verif.Props.LsoSaving

open Verif Verif.Res Verif.Lso Verif.Props.Saveable

variable {D : Type} [Num D]

/-- A loop whose steps succeed on good items and are undefined on the others. -/
theorem fold_cases {α β : Type} {f : β → α → Res β} {I : β → Prop} {G : α → Prop} {l : List α}
    (h : ∀ s, ∀ a ∈ l, I s → (G a ∧ ∃ s', f s a = .ok s' ∧ I s') ∨ (¬G a ∧ f s a = .ub)) :
    ∀ s, I s → ((∀ a ∈ l, G a) ∧ ∃ s', foldM' f s l = .ok s' ∧ I s') ∨ ((∃ a ∈ l, ¬G a) ∧ foldM' f s l = .ub) := by
  induction l with
  | nil => intro s hs; exact Or.inl ⟨by simp, s, rfl, hs⟩
  | cons a l ih =>
    intro s hs
    rw [foldM'_cons]
    rcases h s a (by simp) hs with ⟨hg, s', e, hs'⟩ | ⟨hg, e⟩
    · rw [e, ok_bind]
      rcases ih (fun s x hx => h s x (by simp [hx])) s' hs' with ⟨h1, h2⟩ | ⟨⟨x, hx, hn⟩, h2⟩
      · exact Or.inl ⟨fun x hx => by
          rcases List.mem_cons.1 hx with rfl | hx
          · exact hg
          · exact h1 x hx, h2⟩
      · exact Or.inr ⟨⟨x, by simp [hx], hn⟩, h2⟩
    · rw [e]
      exact Or.inr ⟨⟨a, by simp, hg⟩, rfl⟩

/-- The unique vertex is at a block. -/
def AtBlock (l : List Cmv) : Prop := ∃ c ∈ l, c.isBlock = true

/-- The first unique vertex without block vertex is undefined behaviour. -/
theorem writeVertices_ub {m : Lso.Model D} (g : Sound m) (h : ∃ l ∈ m.uniques, ¬AtBlock l) : writeVertices m = .ub := by
  have key : ∀ (cs : List (List Cmv)), (∀ l ∈ cs, l ∈ m.uniques) → (∃ l ∈ cs, ¬AtBlock l) → ∀ st v, writeVerticesFrom m st v cs = .ub := by
    intro cs
    induction cs with
    | nil => rintro _ ⟨l, hl, _⟩; simp at hl
    | cons c cs ih =>
      intro hc hex st v
      unfold writeVerticesFrom
      by_cases hb : AtBlock c
      · have hcm := hc c (by simp)
        obtain ⟨x, hx, hx'⟩ := mainOf_eq (blockVertices_ne hb)
        obtain ⟨hxc, hxb⟩ := block_of_main hx'
        obtain ⟨p, b, hb', hp⟩ := g.points c hcm x hxc hxb
        have e1 : Res.index (c.filter Cmv.isBlock) (firstBlock (c.filter Cmv.isBlock)) = .ok x := index_eq_ok.2 hx
        have e2 : blockOf m x.id = .ok b := by unfold blockOf; rw [hb']; rfl
        have e3 : Res.index b.points x.vertex = .ok p := index_eq_ok.2 hp
        have hw : Returns (writeVertex m st v c) := by
          unfold writeVertex
          simp only [e1, e2, e3, ok_bind, pure_eq]
          exact ⟨_, rfl⟩
        obtain ⟨st', hw⟩ := hw
        rw [hw, ok_bind]
        refine ih (fun l hl => hc l (by simp [hl])) ?_ _ _
        obtain ⟨l, hl, hn⟩ := hex
        rcases List.mem_cons.1 hl with rfl | hl
        · exact absurd hb hn
        · exact ⟨l, hl, hn⟩
      · have e : c.filter Cmv.isBlock = [] := by
          rw [List.filter_eq_nil_iff]
          intro x hx hxb
          exact hb ⟨x, hx, hxb⟩
        have hw : writeVertex m st v c = .ub := by
          unfold writeVertex
          simp only [e]
          rfl
        rw [hw]
        rfl
  unfold writeVertices
  rw [key m.uniques (fun _ h => h) h]
  rfl

theorem writeTetras_returns {m : Lso.Model D} (g : Sound m) {vs : List (List (Cmv × Nat))} {vl : File} (h1 : writeVertices m = .ok (vs, vl))
    (hc0 : ∀ b ∈ m.blocks, ∀ t ∈ b.tetras, ∀ v ∈ t, ∃ l ∈ m.uniques, (⟨true, b.id, v⟩ : Cmv) ∈ l) : Returns (writeTetras m vs) := by
  obtain ⟨ps, _, hm, e, _⟩ := writeVertices_ok h1
  unfold writeTetras
  rw [returns_bind]
  have : Returns (mapM' (fun b => mapM' (writeTetra m vs b) b.tetras) m.blocks) := by
    refine returns_mapM'.2 fun b hb => returns_mapM'.2 fun t ht => ?_
    unfold writeTetra
    rw [returns_bind]
    obtain ⟨ns, hns⟩ : Returns (mapM' (fun v => vertexNumber m vs ⟨true, b.id, v⟩) t) := by
      refine returns_mapM'.2 fun v hv => ?_
      obtain ⟨l, hl, hc⟩ := hc0 b hb t ht v hv
      rw [e]
      exact ⟨_, vertexNumber_eq g.once hm ((order_perm m).mem_iff.2 (List.mem_flatMap.2 ⟨l, hl, List.mem_filter.2 ⟨hc, rfl⟩⟩))⟩
    exact ⟨ns, hns, _, rfl⟩
  obtain ⟨ls, hls⟩ := this
  exact ⟨ls, hls, _, rfl⟩

/-- The surface has a triangle. -/
def HasTriangle (m : Lso.Model D) (i : Nat) : Prop := ∃ s, m.surfaces.find? (fun s => s.id = i) = some s ∧ s.triangles ≠ []

theorem face_cases {m : Lso.Model D} {i : Nat} (hex : ∃ s, m.surfaces.find? (fun s => s.id = i) = some s) {st : SState}
    (hi : ∀ e ∈ st.exported, HasTriangle m e.1) :
    (HasTriangle m i ∧ ∃ st', writeFace m st i = .ok st' ∧ ∀ e ∈ st'.exported, HasTriangle m e.1) ∨ (¬HasTriangle m i ∧ writeFace m st i = .ub) := by
  unfold writeFace
  split
  · rename_i ha
    rw [List.any_eq_true] at ha
    obtain ⟨e, he, hei⟩ := ha
    have := hi e he
    rw [of_decide_eq_true hei] at this
    exact Or.inl ⟨this, st, rfl, hi⟩
  · obtain ⟨s, hs⟩ := hex
    rw [hs, ofParse_some, ok_bind]
    cases ht : s.triangles with
    | nil =>
      refine Or.inr ⟨?_, rfl⟩
      rintro ⟨s', hs', hne⟩
      rw [hs] at hs'
      cases hs'
      exact hne ht
    | cons t ts =>
      have hg : HasTriangle m i := ⟨s, hs, by rw [ht]; simp⟩
      rw [index_cons_zero, ok_bind]
      refine Or.inl ⟨hg, _, rfl, ?_⟩
      intro e he
      rcases List.mem_append.1 he with he | he
      · exact hi e he
      · rw [List.mem_singleton.1 he]
        exact hg

theorem collection_cases {m : Lso.Model D} {c : Str × List Nat} (hex : ∀ i ∈ c.2, ∃ s, m.surfaces.find? (fun s => s.id = i) = some s) {st : SState}
    (hi : ∀ e ∈ st.exported, HasTriangle m e.1) :
    ((∀ i ∈ c.2, HasTriangle m i) ∧ ∃ st', writeCollection m st c = .ok st' ∧ ∀ e ∈ st'.exported, HasTriangle m e.1) ∨
      (¬(∀ i ∈ c.2, HasTriangle m i) ∧ writeCollection m st c = .ub) := by
  unfold writeCollection
  split
  · rename_i ha
    rw [List.all_eq_true] at ha
    refine Or.inl ⟨fun i hm => ?_, st, rfl, hi⟩
    obtain ⟨e, he, hei⟩ := List.any_eq_true.1 (ha i hm)
    have := hi e he
    rwa [of_decide_eq_true hei] at this
  · rcases fold_cases (f := writeFace m) (I := fun st : SState => ∀ e ∈ st.exported, HasTriangle m e.1) (G := HasTriangle m) (l := c.2)
      (fun s i hm hs => face_cases (hex i hm) hs) { st with lines := st.lines ++ [cs!"SURFACE" ++ spaced [c.1]] } hi with ⟨h1, h2⟩ | ⟨⟨i, hm, hn⟩, h2⟩
    · exact Or.inl ⟨h1, h2⟩
    · exact Or.inr ⟨fun h => hn (h i hm), h2⟩

/-- The region of a block can be written. -/
def RegionOk (m : Lso.Model D) (sides : Sides.AllSides) (b : Lso.Block D) : Prop :=
  ∃ s, b.boundaries[0]? = some s ∧ (Sides.find sides.regions (b.id, s)).isSome = true ∧ ∃ c ∈ Lso.collections m, s ∈ c.2

theorem region_cases {m : Lso.Model D} {sides : Sides.AllSides} {exported : List (Nat × Nat)}
    (he : ∀ i, (Sides.find exported i).isSome = true ↔ ∃ c ∈ Lso.collections m, i ∈ c.2) (b : Lso.Block D) :
    (RegionOk m sides b ∧ Returns (Lso.writeRegion sides exported b)) ∨ (b.boundaries = [] ∧ Lso.writeRegion sides exported b = .ub) ∨
      (¬RegionOk m sides b ∧ b.boundaries ≠ [] ∧ Lso.writeRegion sides exported b = .throw) := by
  unfold Lso.writeRegion
  cases hb : b.boundaries with
  | nil => exact Or.inr (Or.inl ⟨rfl, rfl⟩)
  | cons s ss =>
    rw [index_cons_zero, ok_bind]
    cases hs : Sides.find sides.regions (b.id, s) with
    | none =>
      refine Or.inr (Or.inr ⟨?_, by simp, rfl⟩)
      rintro ⟨s', e1, e2, _⟩
      rw [hb] at e1
      cases e1
      rw [hs] at e2
      cases e2
    | some side =>
      rw [ofParse_some, ok_bind]
      cases hx : Sides.find exported s with
      | none =>
        refine Or.inr (Or.inr ⟨?_, by simp, rfl⟩)
        rintro ⟨s', e1, _, e2⟩
        rw [hb] at e1
        cases e1
        have := (he s).2 e2
        rw [hx] at this
        cases this
      | some n =>
        exact Or.inl ⟨⟨s, by rw [hb]; rfl, by rw [hs]; rfl, (he s).1 (by rw [hx]; rfl)⟩, _, rfl⟩

theorem regions_cases {m : Lso.Model D} {sides : Sides.AllSides} {exported : List (Nat × Nat)}
    (he : ∀ i, (Sides.find exported i).isSome = true ↔ ∃ c ∈ Lso.collections m, i ∈ c.2) (bs : List (Lso.Block D)) :
    (Returns (mapM' (Lso.writeRegion sides exported) bs) ∧ ∀ b ∈ bs, RegionOk m sides b) ∨
    (mapM' (Lso.writeRegion sides exported) bs = .ub ∧ ∃ pre b post, bs = pre ++ b :: post ∧ (∀ x ∈ pre, RegionOk m sides x) ∧ b.boundaries = []) ∨
    (mapM' (Lso.writeRegion sides exported) bs = .throw ∧
      ∃ pre b post, bs = pre ++ b :: post ∧ (∀ x ∈ pre, RegionOk m sides x) ∧ ¬RegionOk m sides b ∧ b.boundaries ≠ []) := by
  induction bs with
  | nil => exact Or.inl ⟨⟨[], rfl⟩, by simp⟩
  | cons b bs ih =>
    rw [mapM'_cons]
    have more : ∀ {pre : List (Lso.Block D)}, RegionOk m sides b → (∀ x ∈ pre, RegionOk m sides x) → ∀ x ∈ b :: pre, RegionOk m sides x := by
      intro pre h0 h1 x hx
      rcases List.mem_cons.1 hx with rfl | hx
      · exact h0
      · exact h1 x hx
    rcases region_cases he b with ⟨h1, l, e⟩ | ⟨h1, e⟩ | ⟨h1, h2, e⟩
    · rw [e, ok_bind]
      rcases ih with ⟨⟨ls, e'⟩, h3⟩ | ⟨e', pre, x, post, rfl, h3, h4⟩ | ⟨e', pre, x, post, rfl, h3, h4⟩
      · exact Or.inl ⟨⟨l :: ls, by rw [e']; rfl⟩, more h1 h3⟩
      · exact Or.inr (Or.inl ⟨by rw [e']; rfl, b :: pre, x, post, rfl, more h1 h3, h4⟩)
      · exact Or.inr (Or.inr ⟨by rw [e']; rfl, b :: pre, x, post, rfl, more h1 h3, h4⟩)
    · rw [e]
      exact Or.inr (Or.inl ⟨rfl, [], b, bs, rfl, by simp, h1⟩)
    · rw [e]
      exact Or.inr (Or.inr ⟨rfl, [], b, bs, rfl, by simp, h1, h2⟩)

/-- What holds of the models of the library besides `Sound`: the vertices of tetrahedra have unique vertices, and the surfaces of collections exist. -/
structure Complete (m : Lso.Model D) : Prop where
  corners : ∀ b ∈ m.blocks, ∀ t ∈ b.tetras, ∀ v ∈ t, ∃ l ∈ m.uniques, (⟨true, b.id, v⟩ : Cmv) ∈ l
  faces : ∀ c ∈ Lso.collections m, ∀ i ∈ c.2, ∃ s, m.surfaces.find? (fun s => s.id = i) = some s

/-- What is undefined when a model is saved: a unique vertex at no block, a surface of a collection without triangle, or a block without boundary surface
before which no block is refused. -/
def Undefined (m : Lso.Model D) (sides : Sides.AllSides) : Prop :=
  (∃ l ∈ m.uniques, ¬AtBlock l) ∨ (∃ c ∈ Lso.collections m, ∃ i ∈ c.2, ¬HasTriangle m i) ∨
  ∃ pre b post, m.blocks = pre ++ b :: post ∧ (∀ x ∈ pre, RegionOk m sides x) ∧ b.boundaries = []

/-- **C66, exactly**: the outcomes of saving a model.  It is saved under the conditions of `LsoSaved`, undefined under those of `Undefined`, and refused with
an exception otherwise. -/
theorem outcomes {m : Lso.Model D} (g : Sound m) (w : Complete m) (sides : Sides.AllSides) :
    (saveLso m sides = .ub ↔ Undefined m sides) ∧ (saveLso m sides = .throw ↔ ¬LsoSaved m sides ∧ ¬Undefined m sides) := by
  have hsave := lso_saved_iff g sides
  have three : (saveLso m sides = .ub ∧ Undefined m sides) ∨ (saveLso m sides = .throw ∧ ¬Undefined m sides) ∨
      (Returns (saveLso m sides) ∧ ¬Undefined m sides) := by
    by_cases hv : ∃ l ∈ m.uniques, ¬AtBlock l
    · refine Or.inl ⟨?_, Or.inl hv⟩
      unfold saveLso
      rw [writeVertices_ub g hv]
      rfl
    · have hv' : ∀ l ∈ m.uniques, ∃ c ∈ l, c.isBlock = true := by
        intro l hl
        by_contra hn
        exact hv ⟨l, hl, hn⟩
      obtain ⟨⟨vs, vl⟩, h1⟩ := writeVertices_returns g hv'
      obtain ⟨tl, h2⟩ := writeTetras_returns g h1 w.corners
      rcases fold_cases (f := writeCollection m) (I := fun st : SState => ∀ e ∈ st.exported, HasTriangle m e.1)
        (G := fun c => ∀ i ∈ c.2, HasTriangle m i) (l := Lso.collections m) (fun s c hc hs => collection_cases (w.faces c hc) hs) (sstate [] [])
        (by intro e he; simp [sstate, Lso.numbered] at he) with ⟨hf, st, h3, _⟩ | ⟨⟨c, hc, hn⟩, h3⟩
      · have hst := (writeCollections_ok _ h3).2
        have he : ∀ i, (Sides.find st.exported i).isSome = true ↔ ∃ c ∈ Lso.collections m, i ∈ c.2 := by
          intro i
          have hk := (Props.LsoRoundTrip.kept_surfaces (Lso.collections m) []).2 i
          rw [hst, Sides.find_isSome]
          show (Lso.numbered 1 _).any _ = true ↔ _
          rw [Lso.any_numbered]
          constructor
          · intro hm
            exact (hk.1 (by simpa using hm)).2
          · intro hx
            simpa using hk.2 ⟨by simp, hx⟩
        have h3' : foldM' (writeCollection m) ({} : SState) (m.horizons ++ m.faults ++ m.boundaries) = .ok st := h3
        have e0 : saveLso m sides = (mapM' (Lso.writeRegion sides st.exported) m.blocks >>= fun regions =>
            pure ([cs!"GOCAD LightTSolid 1"] ++ Gocad.writeHeader m.name ++ Gocad.writeCrs {} ++ vl ++ tl ++ [cs!"MODEL"] ++ st.lines ++ regions ++ [cs!"END"])) := by
          unfold saveLso
          rw [h1, ok_bind]
          simp only [h2, h3', ok_bind]
        have notf : ¬∃ c ∈ Lso.collections m, ∃ i ∈ c.2, ¬HasTriangle m i := fun ⟨c, hc, i, hi, hn⟩ => hn (hf c hc i hi)
        rcases regions_cases he m.blocks with ⟨⟨ls, e1⟩, hr⟩ | ⟨e1, hr⟩ | ⟨e1, pre, b, post, hb, hp, hnb, hne⟩
        · refine Or.inr (Or.inr ⟨⟨_, by rw [e0, e1]; rfl⟩, ?_⟩)
          rintro (hx | hx | ⟨pre, b, post, hb, _, hn⟩)
          · exact hv hx
          · exact notf hx
          · obtain ⟨s, e2, _⟩ := hr b (by rw [hb]; simp)
            rw [hn] at e2
            cases e2
        · exact Or.inl ⟨by rw [e0, e1]; rfl, Or.inr (Or.inr hr)⟩
        · refine Or.inr (Or.inl ⟨by rw [e0, e1]; rfl, ?_⟩)
          rintro (hx | hx | ⟨pre', b', post', hb', hp', hn'⟩)
          · exact hv hx
          · exact notf hx
          · have hno : ¬RegionOk m sides b' := by
              rintro ⟨s, e2, _⟩
              rw [hn'] at e2
              cases e2
            rw [hb] at hb'
            rcases List.append_eq_append_iff.1 hb' with ⟨a, e2, e3⟩ | ⟨a, e2, e3⟩
            · cases a with
              | nil =>
                rw [List.nil_append] at e3
                cases e3
                exact hne hn'
              | cons y ys =>
                rw [List.cons_append] at e3
                cases e3
                exact hnb (hp' b (by rw [e2]; simp))
            · cases a with
              | nil =>
                rw [List.nil_append] at e3
                cases e3
                exact hne hn'
              | cons y ys =>
                rw [List.cons_append] at e3
                cases e3
                exact hno (hp b' (by rw [e2]; simp))
      · have hn' : ∃ i ∈ c.2, ¬HasTriangle m i := by
          by_contra hx
          refine hn fun i hi => ?_
          by_contra hy
          exact hx ⟨i, hi, hy⟩
        refine Or.inl ⟨?_, Or.inr (Or.inl ⟨c, hc, hn'⟩)⟩
        have h3' : foldM' (writeCollection m) ({} : SState) (m.horizons ++ m.faults ++ m.boundaries) = .ub := h3
        unfold saveLso
        rw [h1, ok_bind]
        simp only [h2, h3', ok_bind]
        rfl
  rcases three with ⟨e, hu⟩ | ⟨e, hu⟩ | ⟨⟨f, e⟩, hu⟩
  · refine ⟨⟨fun _ => hu, fun _ => e⟩, ⟨fun h => (by rw [e] at h; cases h), fun h => absurd hu h.2⟩⟩
  · refine ⟨⟨fun h => (by rw [e] at h; cases h), fun h => absurd h hu⟩, ⟨fun _ => ⟨fun hs => ?_, hu⟩, fun _ => e⟩⟩
    obtain ⟨f, e'⟩ := hsave.2 hs
    rw [e] at e'
    cases e'
  · refine ⟨⟨fun h => (by rw [e] at h; cases h), fun h => absurd h hu⟩, ⟨fun h => (by rw [e] at h; cases h), fun h => absurd (hsave.1 ⟨f, e⟩) h.1⟩⟩

/-- The two blocks of the examples are such a model. -/
example : Sound Props.LsoNumbers.twoBlocks ∧ Complete Props.LsoNumbers.twoBlocks := by
  refine ⟨sound_of (by unfold Once; decide) (by decide), by decide, ?_⟩
  intro c hc i hi
  simp [Lso.collections, Props.LsoNumbers.twoBlocks] at hc
  subst hc
  simp at hi
  subst hi
  exact ⟨_, rfl⟩

end Verif.Props.LsoSaving
