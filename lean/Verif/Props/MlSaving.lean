import Verif.Props.LsoSaving

/-!
# Every outcome of saving a model to an ML file (C129)
-/

set_option linter.unusedSectionVars false

namespace Verif.Props.MlSaving

open Verif Verif.Res Verif.Ml Verif.Props.Saveable Verif.Props.LsoSaving

variable {D : Type} [Num D]

/-- The result is a value or an exception. -/
def Safe {α : Type} (x : Res α) : Prop := Returns x ∨ x = .throw

theorem safe_bind {α β : Type} {x : Res α} {f : α → Res β} (h : Safe x) (hf : ∀ a, x = .ok a → Safe (f a)) : Safe (x >>= f) := by
  rcases h with ⟨a, e⟩ | e
  · rw [e, ok_bind]; exact hf a e
  · rw [e]; exact Or.inr rfl

theorem safe_pure {α : Type} (a : α) : Safe (pure a : Res α) := Or.inl ⟨a, rfl⟩

theorem safe_parse {α : Type} (o : Option α) : Safe (Res.ofParse o) := by
  cases o with
  | none => exact Or.inr rfl
  | some a => exact Or.inl ⟨a, rfl⟩

theorem safe_mapM' {α β : Type} {f : α → Res β} {l : List α} (h : ∀ a ∈ l, Safe (f a)) : Safe (mapM' f l) := by
  induction l with
  | nil => exact Or.inl ⟨[], rfl⟩
  | cons a l ih =>
    rw [mapM'_cons]
    exact safe_bind (h a (by simp)) fun b _ => safe_bind (ih fun x hx => h x (by simp [hx])) fun bs _ => safe_pure _

theorem keyLine_cases {s : Ml.Surface D} (v : Nat) : Returns (keyLine s v) ∨ keyLine s v = .ub := by
  unfold keyLine
  by_cases h : v < s.points.length
  · rw [index_of_lt h]; exact Or.inl ⟨_, rfl⟩
  · refine Or.inr ?_
    unfold Res.index
    rw [List.getElem?_eq_none (by omega)]
    rfl

theorem writeFace_cases (st : Faces) (kind name : Str) (s : Ml.Surface D) :
    (HasKey s ∧ ∃ st', Ml.writeFace st kind name s = .ok st') ∨ (¬HasKey s ∧ Ml.writeFace st kind name s = .ub) := by
  by_cases h : HasKey s
  · exact Or.inl ⟨h, writeFace_returns.2 h⟩
  · refine Or.inr ⟨h, ?_⟩
    have hk : keyTriangle s = .ub := by
      have hn : ¬Returns (keyTriangle s) := fun h' => h (keyTriangle_returns.1 h')
      revert hn
      unfold keyTriangle
      cases ht : s.triangles[0]? with
      | none => intro _; unfold Res.index; rw [ht]; rfl
      | some t =>
        rw [index_eq_ok.2 ht, ok_bind]
        rcases keyLine_cases (s := s) t.1 with ⟨a, e⟩ | e <;> rw [e]
        · rw [ok_bind]
          rcases keyLine_cases (s := s) t.2.1 with ⟨b, e⟩ | e <;> rw [e]
          · rw [ok_bind]
            rcases keyLine_cases (s := s) t.2.2 with ⟨c, e⟩ | e <;> rw [e]
            · intro hn; exact absurd ⟨_, rfl⟩ hn
            · intro _; rfl
          · intro _; rfl
        · intro _; rfl
    unfold Ml.writeFace
    rw [hk]
    rfl

theorem item_cases {m : Ml.Model D} {kind name : Res Str} (hk : Returns kind) (hn : Returns name) {i : Nat}
    (hex : ∃ s, m.surfaces.find? (fun s => s.id = i) = some s) {st : Faces} (hi : ∀ j, Has st j → Fine m j) :
    (Fine m i ∧ ∃ st', Ml.writeItem m kind name st i = .ok st' ∧ ∀ j, Has st' j → Fine m j) ∨ (¬Fine m i ∧ Ml.writeItem m kind name st i = .ub) := by
  by_cases hf : Fine m i
  · obtain ⟨st', e⟩ := writeItem_returns (st := st) hk hn hf
    refine Or.inl ⟨hf, st', e, fun j hj => ?_⟩
    rcases ((writeItem_ok e).1 j).1 hj with h | rfl
    · exact hi j h
    · exact hf
  · refine Or.inr ⟨hf, ?_⟩
    unfold Ml.writeItem
    rw [if_neg fun ha => hf (hi i (has_any.1 ha))]
    obtain ⟨k, rfl⟩ := hk
    obtain ⟨n, rfl⟩ := hn
    obtain ⟨s, hs⟩ := hex
    rw [ok_bind, ok_bind, surfaceOf_ok.2 hs, ok_bind]
    rcases writeFace_cases st k n s with ⟨h, _⟩ | ⟨_, e⟩
    · exact absurd ⟨s, hs, h⟩ hf
    · exact e

/-- A surface that is written has no first triangle with points. -/
def Keyless (m : Ml.Model D) : Prop := (∃ i, Listed m i ∧ ¬Fine m i) ∨ ∃ s ∈ unclassified m, ¬HasKey s

theorem tfaces_cases {m : Ml.Model D} (hcs : ∀ c ∈ Ml.collections m, Returns c.1 ∧ Returns c.2.1)
    (hex : ∀ i, Listed m i → ∃ s, m.surfaces.find? (fun s => s.id = i) = some s) :
    (¬Keyless m ∧ Returns (writeTfaces m)) ∨ (Keyless m ∧ writeTfaces m = .ub) := by
  unfold writeTfaces
  rcases fold_cases (f := fun st (c : Res Str × Res Str × List Nat) => foldM' (Ml.writeItem m c.1 c.2.1) st c.2.2)
    (I := fun st : Faces => ∀ j, Has st j → Fine m j) (G := fun c => ∀ i ∈ c.2.2, Fine m i) (l := Ml.collections m)
    (by
      intro st c hc hs
      obtain ⟨hk, hn⟩ := hcs c hc
      rcases fold_cases (f := Ml.writeItem m c.1 c.2.1) (I := fun st : Faces => ∀ j, Has st j → Fine m j) (G := Fine m) (l := c.2.2)
        (fun st i hi hs => item_cases hk hn (hex i (mem_collections.1 ⟨c, hc, hi⟩)) hs) st hs with h | ⟨⟨i, hi, hn⟩, e⟩
      · exact Or.inl h
      · exact Or.inr ⟨fun h => hn (h i hi), e⟩) {} (by intro j hj; simp [Has, Sides.find] at hj) with ⟨h1, st, e, _⟩ | ⟨⟨c, hc, hn⟩, e⟩
  · rw [e, ok_bind]
    have h1' : ∀ i, Listed m i → Fine m i := by
      intro i hi
      obtain ⟨c, hc, hi⟩ := mem_collections.2 hi
      exact h1 c hc i hi
    rcases fold_cases (f := fun st s => Ml.writeFace st cs!"boundary" (componentName s.name) s) (I := fun _ => True) (G := HasKey)
      (l := unclassified m) (by
        intro st s _ _
        rcases writeFace_cases st cs!"boundary" (componentName s.name) s with ⟨h, st', e⟩ | h
        · exact Or.inl ⟨h, st', e, trivial⟩
        · exact Or.inr h) st trivial with ⟨h2, st', e', _⟩ | ⟨⟨s, hs, hn⟩, e'⟩
    · refine Or.inl ⟨?_, st', e'⟩
      rintro (⟨i, hi, hn⟩ | ⟨s, hs, hn⟩)
      · exact hn (h1' i hi)
      · exact hn (h2 s hs)
    · exact Or.inr ⟨Or.inr ⟨s, hs, hn⟩, e'⟩
  · rw [e]
    refine Or.inr ⟨Or.inl ?_, rfl⟩
    by_contra hx
    refine hn fun i hi => ?_
    by_contra hy
    exact hx ⟨i, mem_collections.1 ⟨c, hc, hi⟩, hy⟩

theorem writeUniverse_safe (m : Ml.Model D) (sides : Sides.AllSides) (comps : List (Nat × Nat)) (n : Nat) : Safe (writeUniverse m sides comps n) := by
  unfold writeUniverse
  exact safe_bind (safe_mapM' fun i _ => safe_bind (safe_parse _) fun _ _ => safe_bind (safe_parse _) fun _ _ => safe_pure _) fun _ _ => safe_pure _

theorem writeBlocks_safe (sides : Sides.AllSides) (comps : List (Nat × Nat)) (bs : List Ml.Block) : ∀ n, Safe (Ml.writeBlocks sides comps n bs) := by
  induction bs with
  | nil => intro n; exact Or.inl ⟨_, rfl⟩
  | cons b bs ih =>
    intro n
    unfold Ml.writeBlocks
    refine safe_bind ?_ fun _ _ => safe_bind (ih _) fun _ _ => safe_pure _
    unfold Ml.writeRegion
    exact safe_bind (safe_mapM' fun i _ => safe_bind (safe_parse _) fun _ _ => safe_bind (safe_parse _) fun _ _ => safe_pure _) fun _ _ =>
      safe_bind (safe_mapM' fun i _ => safe_bind (safe_parse _) fun _ _ => safe_pure _) fun _ _ => safe_pure _

theorem writeLayers_safe (m : Ml.Model D) (numbers : List (Nat × Nat)) : Safe (writeLayers m numbers) := by
  have hl : ∀ k l, Safe (writeLayer k numbers l) := by
    intro k l
    unfold writeLayer
    exact safe_bind (safe_parse _) fun _ _ => safe_bind (safe_mapM' fun i _ => safe_bind (safe_parse _) fun _ _ => safe_pure _) fun _ _ => safe_pure _
  unfold writeLayers
  split
  · exact Or.inl ⟨_, rfl⟩
  · exact safe_bind (safe_mapM' fun l _ => hl _ l) fun _ _ => safe_bind (safe_mapM' fun l _ => hl _ l) fun _ _ => safe_pure _

theorem writeTsurfs_safe (m : Ml.Model D) : Safe (writeTsurfs m) := by
  unfold writeTsurfs
  exact safe_bind (safe_mapM' fun f _ => safe_parse _) fun _ _ => safe_bind (safe_mapM' fun f _ => safe_parse _) fun _ _ => safe_pure _

theorem contactText_safe (c : Contact) : Safe (contactText c) := by
  cases c <;> first | exact Or.inl ⟨_, rfl⟩ | exact Or.inr rfl

theorem modelSurfaces_safe (m : Ml.Model D) : Safe (writeModelSurfaces m) := by
  unfold writeModelSurfaces
  refine safe_bind (safe_mapM' ?_) fun _ _ => safe_pure _
  have hs : ∀ is : List Nat, Safe (mapM' (surfaceOf m) is) := fun is => safe_mapM' fun i _ => safe_parse _
  refine forall_collections.2 ⟨?_, ?_, ?_⟩
  · intro b _
    exact safe_bind (safe_pure _) fun _ _ => safe_bind (safe_pure _) fun _ _ => safe_bind (hs _) fun _ _ => safe_pure _
  · intro b _
    exact safe_bind (safe_parse _) fun _ _ => safe_bind (safe_pure _) fun _ _ => safe_bind (hs _) fun _ _ => safe_pure _
  · intro b _
    exact safe_bind (safe_parse _) fun _ _ => safe_bind (contactText_safe _) fun _ _ => safe_bind (hs _) fun _ _ => safe_pure _

/-- All the faults and horizons have names. -/
def Named (m : Ml.Model D) : Prop := (∀ f ∈ faultsOf m, f.2.1.isSome = true) ∧ ∀ h ∈ horizonsOf m, h.2.1.isSome = true

/-- **C129, exactly**: when the surfaces of collections exist and no horizon is of the two kinds without keyword, saving is undefined exactly when all the
faults and horizons have names and a surface has no first triangle; it throws otherwise unless `MlSaved`. -/
theorem outcomes {m : Ml.Model D} (hex : ∀ i, Listed m i → ∃ s, m.surfaces.find? (fun s => s.id = i) = some s)
    (hk : ∀ h ∈ horizonsOf m, h.1 ≠ .erosion ∧ h.1 ≠ .baselap) (sides : Sides.AllSides) :
    (saveMl m sides = .ub ↔ Named m ∧ Keyless m) ∧ (saveMl m sides = .throw ↔ ¬MlSaved m sides ∧ ¬(Named m ∧ Keyless m)) := by
  have hsave := ml_saved_iff m sides
  have two : (saveMl m sides = .ub ∧ Named m ∧ Keyless m) ∨ (Safe (saveMl m sides) ∧ ¬(Named m ∧ Keyless m)) := by
    by_cases hn : Named m
    · obtain ⟨ts, h1⟩ := writeTsurfs_returns.2 hn
      have hcs : ∀ c ∈ Ml.collections m, Returns c.1 ∧ Returns c.2.1 :=
        forall_collections.2 ⟨fun b _ => ⟨⟨_, rfl⟩, ⟨_, rfl⟩⟩, fun f hf => ⟨⟨_, rfl⟩, returns_parse.2 (hn.1 f hf)⟩,
          fun h hh => ⟨contact_returns.2 (hk h hh), returns_parse.2 (hn.2 h hh)⟩⟩
      rcases tfaces_cases hcs hex with ⟨hkl, st, h2⟩ | ⟨hkl, h2⟩
      · refine Or.inr ⟨?_, fun h => hkl h.2⟩
        unfold saveMl writeComponents
        rw [h1, ok_bind, h2, ok_bind]
        exact safe_bind (safe_bind (writeUniverse_safe ..) fun _ _ => safe_bind (writeBlocks_safe ..) fun _ _ => safe_bind (writeLayers_safe ..) fun _ _ =>
          safe_pure _) fun _ _ => safe_bind (modelSurfaces_safe m) fun _ _ => safe_pure _
      · refine Or.inl ⟨?_, hn, hkl⟩
        unfold saveMl writeComponents
        rw [h1, ok_bind, h2]
        rfl
    · refine Or.inr ⟨Or.inr ?_, fun h => hn h.1⟩
      have h1 : writeTsurfs m = .throw := (writeTsurfs_safe m).resolve_left fun h => hn (writeTsurfs_returns.1 h)
      unfold saveMl writeComponents
      rw [h1]
      rfl
  rcases two with ⟨e, hu⟩ | ⟨⟨f, e⟩ | e, hu⟩
  · exact ⟨⟨fun _ => hu, fun _ => e⟩, ⟨fun h => (by rw [e] at h; cases h), fun h => absurd hu h.2⟩⟩
  · exact ⟨⟨fun h => (by rw [e] at h; cases h), fun h => absurd h hu⟩, ⟨fun h => (by rw [e] at h; cases h), fun h => absurd (hsave.1 ⟨f, e⟩) h.1⟩⟩
  · refine ⟨⟨fun h => (by rw [e] at h; cases h), fun h => absurd h hu⟩, ⟨fun _ => ⟨fun hs => ?_, hu⟩, fun _ => e⟩⟩
    obtain ⟨f, e'⟩ := hsave.2 hs
    rw [e] at e'
    cases e'

/-- A boundary with a surface without triangle is such a model, and is undefined. -/
example (sides : Sides.AllSides) : saveMl noTriangle sides = .ub := by
  refine (outcomes (m := noTriangle) ?_ (by intro h hh; cases hh) sides).1.2 ⟨⟨(by intro f hf; cases hf), (by intro f hf; cases hf)⟩, Or.inl ⟨1, Or.inl ⟨_, List.mem_singleton.2 rfl, by simp⟩, ?_⟩⟩
  · rintro i (⟨b, hb, hi⟩ | ⟨f, hf, _⟩ | ⟨f, hf, _⟩)
    · rw [List.mem_singleton.1 hb, List.mem_singleton] at hi
      subst hi
      exact ⟨_, rfl⟩
    · cases hf
    · cases hf
  · rintro ⟨s, hs, t, ht, _⟩
    cases hs
    cases ht

end Verif.Props.MlSaving
