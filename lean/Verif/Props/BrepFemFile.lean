import Verif.Model.BrepFemFile
import Verif.Props.BrepFem
import Verif.Props.FemFeatures

/-!
# Which meshes and models are saved as FEFLOW files
-/

namespace Verif.Props.BrepFemFile

open Verif Verif.Res Verif.BrepFem Verif.Fem
open Verif.Props.FemValues (distribution_ok distribution_ub)
open Verif.Props.FemFeatures (kept OptGroup)
open Verif.Props.BrepFem (copies CellFits Fits FirstHas)

variable {D : Type}

/-! ## Meshes -/

/-- The value of a file, when it is one. -/
def Saved {α : Type} (r : Res α) : Prop := ∃ a, r = .ok a

theorem saved_bind {α β : Type} {x : Res α} {f : α → Res β} (h : Saved (x >>= f)) : ∃ a, x = .ok a ∧ Saved (f a) := by
  obtain ⟨b, h⟩ := h
  obtain ⟨a, h1, h2⟩ := bind_eq_ok.1 h
  exact ⟨a, h1, b, h2⟩

theorem property_iff [DecidableEq D] (toStr : D → Str) (le : D → D → Bool) (n : Nat) (name : Str) (values : List D) :
    (n ≤ values.length ∧ Saved (writeProperty toStr le n name values)) ∨ (values.length < n ∧ writeProperty toStr le n name values = .ub) := by
  unfold writeProperty
  by_cases h : n ≤ values.length
  · obtain ⟨m, h1, -, -⟩ := distribution_ok h
    exact Or.inl ⟨h, _, by rw [h1]; rfl⟩
  · exact Or.inr ⟨by omega, by rw [distribution_ub (by omega)]; rfl⟩

/-- The properties of a list of attributes are written when each has a value for each element; otherwise the behaviour is undefined. -/
theorem properties_iff [DecidableEq D] (toStr : D → Str) (le : D → D → Bool) (n : Nat) : ∀ attrs : List (Fem.Attr D),
    ((∀ a ∈ attrs, n ≤ a.values.length) ∧ Saved (mapM' (fun a : Fem.Attr D => writeProperty toStr le n a.name a.values) attrs)) ∨
      ((∃ a ∈ attrs, a.values.length < n) ∧ mapM' (fun a : Fem.Attr D => writeProperty toStr le n a.name a.values) attrs = .ub)
  | [] => Or.inl ⟨by simp, [], rfl⟩
  | a :: attrs => by
    rw [mapM'_cons]
    rcases property_iff toStr le n a.name a.values with ⟨h, f, e⟩ | ⟨h, e⟩
    · rw [e, ok_bind]
      rcases properties_iff toStr le n attrs with ⟨h', fs, e'⟩ | ⟨⟨b, hb, hl⟩, e'⟩
      · exact Or.inl ⟨fun b hb => by rcases List.mem_cons.1 hb with rfl | hb; exacts [h, h' b hb], _, by rw [e']; rfl⟩
      · exact Or.inr ⟨⟨b, by simp [hb], hl⟩, by rw [e']; rfl⟩
    · exact Or.inr ⟨⟨a, by simp, h⟩, by rw [e]; rfl⟩

theorem nodal_iff [Num D] [DecidableEq D] (toStr : D → Str) (le : D → D → Bool) (m : Mesh D) :
    ((∀ a ∈ nodalAttrs m, m.polyhedra.length ≤ a.values.length) ∧ Saved (writeRefNodalDist toStr le m)) ∨
      ((∃ a ∈ nodalAttrs m, a.values.length < m.polyhedra.length) ∧ writeRefNodalDist toStr le m = .ub) := by
  unfold writeRefNodalDist
  rcases properties_iff toStr le m.polyhedra.length (nodalAttrs m) with ⟨h, f, e⟩ | ⟨h, e⟩
  · exact Or.inl ⟨h, _, by dsimp only; rw [e]; rfl⟩
  · exact Or.inr ⟨h, by dsimp only; rw [e]; rfl⟩

theorem element_iff [DecidableEq D] (toStr : D → Str) (le : D → D → Bool) (m : Mesh D) :
    ((∀ a ∈ elementAttrs m, m.polyhedra.length ≤ a.values.length) ∧ Saved (writeRefElementDist toStr le m)) ∨
      ((∃ a ∈ elementAttrs m, a.values.length < m.polyhedra.length) ∧ writeRefElementDist toStr le m = .ub) := by
  unfold writeRefElementDist
  rcases properties_iff toStr le m.polyhedra.length (elementAttrs m) with ⟨h, f, e⟩ | ⟨h, e⟩
  · exact Or.inl ⟨h, _, by rw [e]; rfl⟩
  · exact Or.inr ⟨h, by rw [e]; rfl⟩

/-- No element has the name of a block. -/
def NoNames (m : Mesh D) : Prop := ∀ bs, m.polyhedronBlocks = some bs → bs = []

theorem sets_iff (ord : List (Str × List Nat) → List (Str × List Nat)) (m : Mesh D) :
    (NoNames m ∧ Saved (writeElementSets ord m)) ∨ (¬ NoNames m ∧ writeElementSets ord m = .ub) := by
  unfold writeElementSets NoNames
  cases h : m.polyhedronBlocks with
  | none => exact Or.inl ⟨by simp, _, rfl⟩
  | some bs =>
    cases bs with
    | nil => exact Or.inl ⟨by simp, _, rfl⟩
    | cons b bs => exact Or.inr ⟨by simp, rfl⟩

/-- When there are values, one of them at least is not negative. -/
def SomeKept (neg : D → Bool) (ts : Option (List (Tagged D))) : Prop := ∀ l, ts = some l → ∃ t ∈ l, neg t.size = false

theorem someKept_iff (neg : D → Bool) (ts : Option (List (Tagged D))) : SomeKept neg ts ↔ ∀ l, ts = some l → kept neg l ≠ [] := by
  unfold SomeKept kept
  constructor
  · intro h l e hk
    obtain ⟨t, ht, hn⟩ := h l e
    rw [List.filter_eq_nil_iff] at hk
    exact hk t ht (by simp [hn])
  · intro h l e
    obtain ⟨t, ht⟩ := List.exists_mem_of_ne_nil _ (h l e)
    obtain ⟨h1, h2⟩ := List.mem_filter.1 ht
    exact ⟨t, h1, by simpa using h2⟩

theorem optGroup_throw [DecidableEq D] {neg pos : D → Bool} {name : Str} {id : Nat} {ts : Option (List (Tagged D))} (h : ¬ SomeKept neg ts) :
    optGroup neg pos name id ts = .throw := by
  rw [someKept_iff] at h
  cases ts with
  | none => exact absurd (by simp) h
  | some l =>
    have hk : kept neg l = [] := by
      apply Classical.byContradiction
      intro hk
      exact h (fun l' e => by cases e; exact hk)
    unfold optGroup
    dsimp only
    rw [FemFeatures.buildGroup_throw hk]; rfl

theorem dfe_iff [Num D] [DecidableEq D] (neg pos : D → Bool) (ord : List (D × List Nat) → List (D × List Nat)) (m : Mesh D) :
    ((SomeKept neg m.facets ∧ SomeKept neg m.edges) ∧ Saved (writeDfe neg pos ord m)) ∨
      (¬ (SomeKept neg m.facets ∧ SomeKept neg m.edges) ∧ writeDfe neg pos ord m = .throw) := by
  by_cases h2 : SomeKept neg m.facets
  · by_cases h1 : SomeKept neg m.edges
    · left
      refine ⟨⟨h2, h1⟩, ?_⟩
      obtain ⟨fs, e, g2, g1⟩ := FemFeatures.buildFeatures_ok (pos := pos) ((someKept_iff neg _).1 h2) ((someKept_iff neg _).1 h1)
      obtain ⟨area, cond, em, -, -⟩ := FemFeatures.materials_ok g2 g1
      unfold writeDfe
      rw [e, ok_bind]
      split
      · exact ⟨_, rfl⟩
      · unfold dfeProperties
        rw [em]
        exact ⟨_, rfl⟩
    · right
      refine ⟨fun h => h1 h.2, ?_⟩
      obtain ⟨g, e, -⟩ := FemFeatures.optGroup_ok (neg := neg) (pos := pos) (name := APERTURE) rfl 1 ((someKept_iff neg _).1 h2)
      unfold writeDfe buildFeatures
      rw [e, ok_bind, optGroup_throw h1]; rfl
  · right
    refine ⟨fun h => h2 h.1, ?_⟩
    unfold writeDfe buildFeatures
    rw [optGroup_throw h2]; rfl

/-- What a mesh needs to be saved. -/
structure Savable (neg : D → Bool) (m : Mesh D) : Prop where
  nodal : ∀ a ∈ nodalAttrs m, m.polyhedra.length ≤ a.values.length
  element : ∀ a ∈ elementAttrs m, m.polyhedra.length ≤ a.values.length
  names : NoNames m
  facets : SomeKept neg m.facets
  edges : SomeKept neg m.edges

section Meshes

variable [Num D] [DecidableEq D]

/-- **C139.**  Exactly the meshes of `Savable` are saved: a scalar property of the nodes has at least as many values as there are elements, no element
has the name of a block, and apertures and conduit areas are not all negative. -/
theorem mesh_saved_iff (toStr : D → Str) (le : D → D → Bool) (neg pos : D → Bool) (ordS : List (Str × List Nat) → List (Str × List Nat))
    (ord : List (D × List Nat) → List (D × List Nat)) (m : Mesh D) : Saved (saveFem toStr le neg pos ordS ord m) ↔ Savable neg m := by
  unfold saveFem
  constructor
  · intro h
    obtain ⟨a, ha, h⟩ := saved_bind h
    obtain ⟨b, hb, h⟩ := saved_bind h
    obtain ⟨c, hc, h⟩ := saved_bind h
    obtain ⟨d, hd, h⟩ := saved_bind h
    rcases nodal_iff toStr le m with ⟨h1, -⟩ | ⟨-, e⟩
    · rcases element_iff toStr le m with ⟨h2, -⟩ | ⟨-, e⟩
      · rcases sets_iff ordS m with ⟨h3, -⟩ | ⟨-, e⟩
        · rcases dfe_iff neg pos ord m with ⟨h4, -⟩ | ⟨-, e⟩
          · exact ⟨h1, h2, h3, h4.1, h4.2⟩
          · rw [e] at hd; cases hd
        · rw [e] at hc; cases hc
      · rw [e] at hb; cases hb
    · rw [e] at ha; cases ha
  · rintro ⟨h1, h2, h3, h4, h5⟩
    have no : ∀ {attrs : List (Fem.Attr D)} {n : Nat}, (∀ a ∈ attrs, n ≤ a.values.length) → ¬ ∃ a ∈ attrs, a.values.length < n := by
      rintro attrs n h ⟨a, ha, hl⟩
      exact absurd (h a ha) (by omega)
    rcases nodal_iff toStr le m with ⟨-, a, e⟩ | ⟨h, -⟩
    · rcases element_iff toStr le m with ⟨-, b, e'⟩ | ⟨h, -⟩
      · rcases sets_iff ordS m with ⟨-, c, e''⟩ | ⟨h, -⟩
        · rcases dfe_iff neg pos ord m with ⟨-, d, e'''⟩ | ⟨h, -⟩
          · exact ⟨_, by rw [e, ok_bind, e', ok_bind, e'', ok_bind, e''']; rfl⟩
          · exact absurd ⟨h4, h5⟩ h
        · exact absurd h3 h
      · exact absurd h (no h2)
    · exact absurd h (no h1)

/-- A mesh that is not saved for one of the first three reasons is undefined behaviour, whatever its facets and edges. -/
theorem mesh_ub (toStr : D → Str) (le : D → D → Bool) (neg pos : D → Bool) (ordS : List (Str × List Nat) → List (Str × List Nat))
    (ord : List (D × List Nat) → List (D × List Nat)) (m : Mesh D) (h : (∃ a ∈ nodalAttrs m, a.values.length < m.polyhedra.length) ∨
      (∃ a ∈ elementAttrs m, a.values.length < m.polyhedra.length) ∨ ¬ NoNames m) : saveFem toStr le neg pos ordS ord m = .ub := by
  have no : ∀ {attrs : List (Fem.Attr D)} {n : Nat}, (∀ a ∈ attrs, n ≤ a.values.length) → ¬ ∃ a ∈ attrs, a.values.length < n := by
    rintro attrs n h ⟨a, ha, hl⟩
    exact absurd (h a ha) (by omega)
  unfold saveFem
  rcases nodal_iff toStr le m with ⟨h1, a, e⟩ | ⟨-, e⟩
  · rw [e, ok_bind]
    rcases element_iff toStr le m with ⟨h2, b, e'⟩ | ⟨-, e'⟩
    · rw [e', ok_bind]
      rcases sets_iff ordS m with ⟨h3, -⟩ | ⟨-, e''⟩
      · rcases h with h | h | h
        · exact absurd h (no h1)
        · exact absurd h (no h2)
        · exact absurd h3 h
      · rw [e'']; rfl
    · rw [e']; rfl
  · rw [e]; rfl

/-- A mesh refused for its facets or edges only is refused with an exception. -/
theorem mesh_throws (toStr : D → Str) (le : D → D → Bool) (neg pos : D → Bool) (ordS : List (Str × List Nat) → List (Str × List Nat))
    (ord : List (D × List Nat) → List (D × List Nat)) (m : Mesh D) (h1 : ∀ a ∈ nodalAttrs m, m.polyhedra.length ≤ a.values.length)
    (h2 : ∀ a ∈ elementAttrs m, m.polyhedra.length ≤ a.values.length) (h3 : NoNames m) (h : ¬ (SomeKept neg m.facets ∧ SomeKept neg m.edges)) :
    saveFem toStr le neg pos ordS ord m = .throw := by
  have no : ∀ {attrs : List (Fem.Attr D)} {n : Nat}, (∀ a ∈ attrs, n ≤ a.values.length) → ¬ ∃ a ∈ attrs, a.values.length < n := by
    rintro attrs n h ⟨a, ha, hl⟩
    exact absurd (h a ha) (by omega)
  unfold saveFem
  rcases nodal_iff toStr le m with ⟨-, a, e⟩ | ⟨h', -⟩
  · rcases element_iff toStr le m with ⟨-, b, e'⟩ | ⟨h', -⟩
    · rcases sets_iff ordS m with ⟨-, c, e''⟩ | ⟨h', -⟩
      · rcases dfe_iff neg pos ord m with ⟨h', -⟩ | ⟨-, e'''⟩
        · exact absurd h' h
        · rw [e, ok_bind, e', ok_bind, e'', ok_bind, e''']; rfl
      · exact absurd h3 h'
    · exact absurd h' (no h2)
  · exact absurd h' (no h1)

end Meshes

/-! ## Models -/

/-- Neither an exception nor an endless loop. -/
def Calm {α : Type} (r : Res α) : Prop := r ≠ .throw ∧ r ≠ .diverge

theorem calm_ok {α : Type} (a : α) : Calm (Res.ok a) := ⟨by simp, by simp⟩

theorem calm_bind {α β : Type} {x : Res α} {f : α → Res β} (hx : Calm x) (hf : ∀ a, Calm (f a)) : Calm (x >>= f) := by
  cases x with
  | ok a => exact hf a
  | throw => exact absurd rfl hx.1
  | ub => exact ⟨by simp, by simp⟩
  | diverge => exact absurd rfl hx.2

theorem calm_fold {α β : Type} {f : β → α → Res β} (hf : ∀ b a, Calm (f b a)) : ∀ (l : List α) (b : β), Calm (foldM' f b l)
  | [], b => calm_ok b
  | a :: l, b => by rw [foldM'_cons]; exact calm_bind (hf b a) fun b' => calm_fold hf l b'

theorem calm_index {α : Type} (l : List α) (i : Nat) : Calm (Res.index l i) := by
  unfold Res.index
  cases l[i]? <;> exact ⟨by simp, by simp⟩

theorem calm_setAt {α : Type} (l : List α) (i : Nat) (a : α) : Calm (setAt l i a) := by
  unfold setAt
  split <;> exact ⟨by simp, by simp⟩

theorem calm_copyAttrs (n : Nat) (blocks : List (Block D)) : Calm (copyAttrs n blocks) := by
  refine calm_fold (fun solid b => calm_fold (fun solid a => ?_) _ _) _ _
  refine calm_bind (calm_index _ _) fun v0 => calm_bind (calm_fold (fun vs e => ?_) _ _) fun vs => calm_ok _
  exact calm_bind (calm_index _ _) fun f => calm_bind (calm_index _ _) fun v => calm_setAt _ _ _

theorem calm_paintCells (n : Nat) (blocks : List (Block D)) : Calm (paintCells n blocks) := by
  refine calm_fold (fun names b => ?_) _ _
  cases b.name with
  | none => exact calm_ok _
  | some k => exact calm_fold (fun names f => calm_setAt _ _ _) _ _

theorem calm_paintVertices (n : Nat) (blocks : List (Block D)) : Calm (paintVertices n blocks) :=
  calm_fold (fun _ _ => calm_fold (fun _ _ => calm_bind (calm_index _ _) fun _ => calm_setAt _ _ _) _ _) _ _

theorem calm_paintOne (name : Option Str) (v : D) (s : State D) (f : Nat) : Calm (paintOne name v s f) := by
  refine calm_bind (calm_setAt _ _ _) fun vs => ?_
  cases name with
  | none => exact calm_ok _
  | some k => exact calm_bind (calm_setAt _ _ _) fun _ => calm_ok _

theorem calm_paintAttribute (n : Nat) (dflt : D) (comps : List (Comp D)) (p : Painted D) (attr : Str) : Calm (paintAttribute n dflt comps p attr) := by
  refine calm_bind (calm_fold (fun s c => ?_) _ _) fun s => calm_ok _
  unfold paintComp
  split
  · exact calm_ok _
  · exact calm_fold (fun s e => calm_bind (calm_index _ _) fun v => calm_fold (fun s f => calm_paintOne _ _ _ _) _ _) _ _

theorem calm_paintInfos (n : Nat) (dflt : D) (own cond : Str) (comps : List (Comp D)) : Calm (paintInfos n dflt own cond comps) := by
  refine calm_bind ?_ fun p => calm_paintAttribute _ _ _ _ _
  unfold paintOwn
  split
  · exact calm_ok _
  · split
    · exact calm_paintAttribute _ _ _ _ _
    · exact calm_ok _

theorem calm_paint (dflt : D) (m : Model D) : Calm (paint dflt m) :=
  calm_bind (calm_copyAttrs _ _) fun _ => calm_bind (calm_paintCells _ _) fun _ => calm_bind (calm_paintVertices _ _) fun _ =>
    calm_bind (calm_paintInfos _ _ _ _ _) fun _ => calm_bind (calm_paintInfos _ _ _ _ _) fun _ => calm_ok _

theorem fold_inv {α β : Type} {f : β → α → Res β} {P : β → Prop} (hf : ∀ b a b', P b → f b a = .ok b' → P b') :
    ∀ (l : List α) (b b' : β), P b → foldM' f b l = .ok b' → P b'
  | [], b, b', hb, h => by cases h; exact hb
  | a :: l, b, b', hb, h => by
    rw [foldM'_cons] at h
    obtain ⟨c, h1, h2⟩ := bind_eq_ok.1 h
    exact fold_inv hf l c b' (hf b a c hb h1) h2

theorem length_setAt {α : Type} {l l' : List α} {i : Nat} {a : α} (h : setAt l i a = .ok l') : l'.length = l.length := by
  unfold setAt at h
  split at h
  · cases h; simp
  · cases h

/-- Each polyhedron of the solid has a name. -/
theorem length_paintCells {n : Nat} {blocks : List (Block D)} {names : List Str} (h : paintCells n blocks = .ok names) : names.length = n := by
  refine fold_inv (P := fun names : List Str => names.length = n) ?_ _ _ _ (by simp) h
  intro names b names' hn h
  cases hb : b.name with
  | none => rw [hb] at h; cases h; exact hn
  | some k =>
    rw [hb] at h
    exact fold_inv (P := fun names : List Str => names.length = n) (fun _ _ _ hn h => (length_setAt h).trans hn) _ _ _ hn h

theorem paint_inv {dflt : D} {m : Model D} {mesh : Mesh D} (h : paint dflt m = .ok mesh) : ∃ attrs cells vertices facets edges,
    copyAttrs m.solid.polyhedra.length m.blocks = .ok attrs ∧ paintCells m.solid.polyhedra.length m.blocks = .ok cells ∧
    paintVertices m.solid.points.length m.blocks = .ok vertices ∧
    paintInfos m.solid.facets.length dflt cs!"diagres_discontinuity_aperture" cs!"diagres_conductivity" m.surfaces = .ok facets ∧
    paintInfos m.solid.edges.length dflt cs!"diagres_conduit_area" cs!"diagres_conductivity" m.lines = .ok edges ∧
    mesh.polyhedra = m.solid.polyhedra ∧ mesh.points = m.solid.points ∧ mesh.polyhedronBlocks = some cells ∧ mesh.vertexBlocks = some vertices ∧
    mesh.vertexAttrs = m.solid.vertexAttrs ++ [textAttr cs!"Block_ID_vertex"] ∧
    mesh.polyhedronAttrs = m.solid.polyhedronAttrs ++ attrs.map (fun a => ⟨a.name, true, a.values⟩) ++ [textAttr cs!"Block_ID_polyhedron"] ∧
    mesh.facets = tag m.solid.facets APERTURE CONDUCTIVITY facets ∧ mesh.edges = tag m.solid.edges CONDUIT_AREA CONDUCTIVITY edges := by
  unfold paint at h
  obtain ⟨attrs, h1, h⟩ := bind_eq_ok.1 h
  obtain ⟨cells, h2, h⟩ := bind_eq_ok.1 h
  obtain ⟨vertices, h3, h⟩ := bind_eq_ok.1 h
  obtain ⟨facets, h4, h⟩ := bind_eq_ok.1 h
  obtain ⟨edges, h5, h⟩ := bind_eq_ok.1 h
  cases h
  exact ⟨attrs, cells, vertices, facets, edges, h1, h2, h3, h4, h5, rfl, rfl, rfl, rfl, rfl, rfl, rfl, rfl⟩

/-- **C140 is false** of every model whose solid has a polyhedron: saving it is undefined behaviour.  Its polyhedra get names of blocks, and the sets of
named elements are always undefined behaviour. -/
theorem every_model_ub [Num D] [DecidableEq D] (dflt : D) (toStr : D → Str) (le : D → D → Bool) (neg pos : D → Bool) (ordS : List (Str × List Nat) → List (Str × List Nat))
    (ord : List (D × List Nat) → List (D × List Nat)) (m : Model D) (h : m.solid.polyhedra ≠ []) : BrepFem.write dflt toStr le neg pos ordS ord m = .ub := by
  unfold BrepFem.write
  split
  · cases hp : paint dflt m with
    | ub => rfl
    | throw => exact absurd hp (calm_paint dflt m).1
    | diverge => exact absurd hp (calm_paint dflt m).2
    | ok mesh =>
      rw [ok_bind]
      obtain ⟨attrs, cells, vertices, facets, edges, -, hc, -, -, -, -, -, hb, -⟩ := paint_inv hp
      refine mesh_ub toStr le neg pos ordS ord mesh (Or.inr (Or.inr fun hn => ?_))
      have := length_paintCells hc
      rw [hn cells hb] at this
      exact h (List.length_eq_zero_iff.1 this.symm)
  · rfl

/-- The mappings of the model lead into its solid, the attributes have a value for each element, the blocks with attributes have polyhedra, and the
solid has no scalar attribute of its own but those of its structure. -/
structure Sound (m : Model D) : Prop where
  tetrahedral : m.solid.tetrahedral = true
  cells : ∀ x ∈ copies m.blocks, CellFits m.solid.polyhedra.length x
  named : ∀ b ∈ m.blocks, ∀ f ∈ b.cells.flatten, f < m.solid.polyhedra.length
  vertices : ∀ b ∈ m.blocks, ∀ v ∈ b.vertices, v < m.solid.points.length
  apertures : ∀ c ∈ m.surfaces, Fits m.solid.facets.length APERTURE c
  facets : ∀ c ∈ m.surfaces, Fits m.solid.facets.length CONDUCTIVITY c
  areas : ∀ c ∈ m.lines, Fits m.solid.edges.length CONDUIT_AREA c
  edges : ∀ c ∈ m.lines, Fits m.solid.edges.length CONDUCTIVITY c
  ownVertex : ∀ a ∈ m.solid.vertexAttrs, a.genericable = false
  ownPolyhedron : ∀ a ∈ m.solid.polyhedronAttrs, a.genericable = false

theorem length_copyAttrs {n : Nat} {blocks : List (Block D)} {attrs : List (BrepFem.Attr D)} (h : copyAttrs n blocks = .ok attrs) :
    ∀ a ∈ attrs, a.values.length = n := by
  refine fold_inv (P := fun attrs : List (BrepFem.Attr D) => ∀ a ∈ attrs, a.values.length = n) ?_ _ _ _ (by simp) h
  intro solid b solid' hs h
  refine fold_inv (P := fun attrs : List (BrepFem.Attr D) => ∀ a ∈ attrs, a.values.length = n) ?_ _ _ _ hs h
  intro solid a solid' hs h
  unfold copyAttr at h
  obtain ⟨v0, -, h⟩ := bind_eq_ok.1 h
  obtain ⟨vs, h1, h⟩ := bind_eq_ok.1 h
  cases h
  have start : (startValues n solid a.name v0).length = n := by
    unfold startValues
    cases hf : BrepFem.find solid a.name with
    | none => simp
    | some x => exact hs x (List.mem_of_find?_eq_some hf)
  have hv : vs.length = n := by
    refine fold_inv (P := fun vs : List D => vs.length = n) ?_ _ _ _ start h1
    intro vs e vs' hn h
    obtain ⟨f, -, h⟩ := bind_eq_ok.1 h
    obtain ⟨v, -, h⟩ := bind_eq_ok.1 h
    exact (length_setAt h).trans hn
  intro x hx
  rcases List.mem_append.1 hx with hx | hx
  · exact hs x (List.mem_filter.1 hx).1
  · cases List.mem_singleton.1 hx; exact hv

/-- A sound model is painted. -/
theorem painted (dflt : D) {m : Model D} (h : Sound m) : ∃ mesh, paint dflt m = .ok mesh := by
  obtain ⟨attrs, h1, -⟩ := BrepFem.attributes_copied h.cells
  obtain ⟨cells, h2, -⟩ := BrepFem.cells_named h.named
  have h3 := BrepFem.vertices_labelled h.vertices
  have ne1 : APERTURE ≠ CONDUCTIVITY := by decide
  have ne2 : CONDUIT_AREA ≠ CONDUCTIVITY := by decide
  obtain ⟨facets, _, h4, -, -⟩ := BrepFem.conductivity_painted dflt ne1 h.apertures h.facets
  obtain ⟨edges, _, h5, -, -⟩ := BrepFem.conductivity_painted dflt ne2 h.areas h.edges
  unfold paint
  rw [h1, ok_bind, h2, ok_bind, h3, ok_bind, h4, ok_bind, h5, ok_bind]
  exact ⟨_, rfl⟩

/-- When the first component has the attribute, some facet or edge gets it, and only values that are not negative. -/
def Shown (neg : D → Bool) (n : Nat) (own : Str) (comps : List (Comp D)) : Prop :=
  FirstHas own comps → ∃ f < n, (∃ v, BrepFem.Gives comps own f v) ∧ ∀ v, BrepFem.Gives comps own f v → neg v = false

theorem shown_kept {neg : D → Bool} {items : List (List Nat)} {dflt : D} {own cond : Str} (hne : own ≠ cond) {comps : List (Comp D)}
    (ho : ∀ c ∈ comps, Fits items.length own c) (hc : ∀ c ∈ comps, Fits items.length cond c) (hs : Shown neg items.length own comps) {p : Painted D}
    (hp : paintInfos items.length dflt own cond comps = .ok p) : SomeKept neg (tag items own cond p) := by
  intro l hl
  by_cases hf : FirstHas own comps
  · obtain ⟨p1, vs, e1, f1, t1⟩ := BrepFem.own_painted_partial dflt ho hc hf
    obtain ⟨p2, ws, e2, f2, t2⟩ := BrepFem.conductivity_painted dflt hne ho hc
    rw [hp] at e1 e2
    cases e1; cases e2
    obtain ⟨f, hlt, ⟨v, hv⟩, hall⟩ := hs hf
    obtain ⟨w, hw, hneg⟩ : ∃ w, vs[f]? = some w ∧ neg w = false := by
      rcases t1.2 f hlt with ⟨w, h1, h2⟩ | ⟨h1, -⟩
      · exact ⟨w, h1, hall w h2⟩
      · exact absurd hv (h1 v)
    obtain ⟨c, hcond⟩ : ∃ c, ws[f]? = some c := ⟨ws[f]'(by rw [t2.1]; exact hlt), by simp⟩
    simp only [tag, f1, f2, Option.some.injEq] at hl
    subst hl
    refine ⟨⟨items[f], w, c⟩, List.mem_map.2 ⟨(items[f], w, c), ?_, rfl⟩, hneg⟩
    refine List.mem_iff_getElem?.2 ⟨f, ?_⟩
    rw [List.getElem?_zip_eq_some]
    refine ⟨by simp, ?_⟩
    rw [List.getElem?_zip_eq_some]
    exact ⟨hw, hcond⟩
  · obtain ⟨p1, e1, f1⟩ := BrepFem.own_not_painted dflt hne hc hf
    rw [hp] at e1
    cases e1
    simp [tag, f1] at hl

theorem painted_savable {dflt : D} {neg : D → Bool} {m : Model D} (h : Sound m) (hs : Shown neg m.solid.facets.length APERTURE m.surfaces)
    (hl : Shown neg m.solid.edges.length CONDUIT_AREA m.lines) {mesh : Mesh D} (hp : paint dflt m = .ok mesh) (names : Option (List Str))
    (hn : ∀ bs, names = some bs → bs = []) : Savable neg { mesh with polyhedronBlocks := names } := by
  obtain ⟨attrs, cells, vertices, facets, edges, h1, -, -, h4, h5, e1, -, -, -, e2, e3, e4, e5⟩ := paint_inv hp
  have ne1 : APERTURE ≠ CONDUCTIVITY := by decide
  have ne2 : CONDUIT_AREA ≠ CONDUCTIVITY := by decide
  refine ⟨?_, ?_, hn, ?_, ?_⟩
  · intro a ha
    obtain ⟨h6, h7⟩ := List.mem_filter.1 ha
    have h6 : a ∈ mesh.vertexAttrs := h6
    rw [e2] at h6
    have : a.genericable = false := by
      rcases List.mem_append.1 h6 with h6 | h6
      · exact h.ownVertex a h6
      · cases List.mem_singleton.1 h6; rfl
    simp [this] at h7
  · intro a ha
    obtain ⟨h6, h7⟩ := List.mem_filter.1 ha
    have h6 : a ∈ mesh.polyhedronAttrs := h6
    have hne : ∀ {b : Bool}, a.genericable = false → (a.genericable && b) = true → False := by
      intro b h1 h2; simp [h1] at h2
    rw [e3] at h6
    rcases List.mem_append.1 h6 with h6 | h6
    · rcases List.mem_append.1 h6 with h6 | h6
      · exact absurd h7 (hne (h.ownPolyhedron a h6))
      · obtain ⟨x, hx, rfl⟩ := List.mem_map.1 h6
        dsimp only
        rw [e1, length_copyAttrs h1 x hx]
        exact Nat.le_refl _
    · cases List.mem_singleton.1 h6
      exact absurd h7 (hne rfl)
  · dsimp only
    rw [e4]
    exact shown_kept ne1 h.apertures h.facets hs h4
  · dsimp only
    rw [e5]
    exact shown_kept ne2 h.areas h.edges hl h5

/-- C140 but for the sets of elements: a sound model is painted, and its mesh without these sets is saved. -/
theorem model_saved_partial [Num D] [DecidableEq D] (dflt : D) (toStr : D → Str) (le : D → D → Bool) (neg pos : D → Bool) (ordS : List (Str × List Nat) → List (Str × List Nat))
    (ord : List (D × List Nat) → List (D × List Nat)) {m : Model D} (h : Sound m) (hs : Shown neg m.solid.facets.length APERTURE m.surfaces)
    (hl : Shown neg m.solid.edges.length CONDUIT_AREA m.lines) :
    ∃ mesh, paint dflt m = .ok mesh ∧ Saved (saveFem toStr le neg pos ordS ord { mesh with polyhedronBlocks := none }) := by
  obtain ⟨mesh, hp⟩ := painted dflt h
  exact ⟨mesh, hp, (mesh_saved_iff toStr le neg pos ordS ord _).2 (painted_savable h hs hl hp none (by simp))⟩

/-- Of the sound models, exactly those without polyhedra are saved. -/
theorem model_saved_iff [Num D] [DecidableEq D] (dflt : D) (toStr : D → Str) (le : D → D → Bool) (neg pos : D → Bool) (ordS : List (Str × List Nat) → List (Str × List Nat))
    (ord : List (D × List Nat) → List (D × List Nat)) {m : Model D} (h : Sound m) (hs : Shown neg m.solid.facets.length APERTURE m.surfaces)
    (hl : Shown neg m.solid.edges.length CONDUIT_AREA m.lines) : Saved (BrepFem.write dflt toStr le neg pos ordS ord m) ↔ m.solid.polyhedra = [] := by
  constructor
  · rintro ⟨t, ht⟩
    apply Classical.byContradiction
    intro hn
    rw [every_model_ub dflt toStr le neg pos ordS ord m hn] at ht
    cases ht
  · intro he
    obtain ⟨mesh, hp⟩ := painted dflt h
    unfold BrepFem.write
    rw [if_pos h.tetrahedral, hp, ok_bind]
    obtain ⟨attrs, cells, vertices, facets, edges, -, hc, -, -, -, -, -, hb, -⟩ := paint_inv hp
    have hk : cells = [] := List.length_eq_zero_iff.1 ((length_paintCells hc).trans (by rw [he]; rfl))
    have key := painted_savable (neg := neg) h hs hl hp (some cells) (by rintro bs e; cases e; exact hk)
    have : ({ mesh with polyhedronBlocks := some cells } : Mesh D) = mesh := by rw [← hb]
    rw [this] at key
    exact (mesh_saved_iff toStr le neg pos ordS ord mesh).2 key

/-- The models reported as saveable: a mesh vertex of a block is at every unique vertex. -/
theorem saveable_iff (m : Model D) : isSaveable m = true ↔ ∀ (u : Nat) (b : Bool), m.inBlock[u]? = some b → b = true := by
  unfold isSaveable
  rw [List.all_eq_true]
  constructor
  · intro h u b hb
    exact h b (List.mem_of_getElem? hb)
  · intro h b hb
    obtain ⟨u, hu⟩ := List.getElem?_of_mem hb
    exact h u b hu

/-- Witness: one block of one tetrahedron with a porosity, a surface with apertures and a line; it is reported as saveable. -/
def oneTetra : Model Int where
  blocks := [⟨some cs!"b", cs!"u", [⟨cs!"porosity", [7]⟩], [[0]], [0, 1, 2, 3]⟩]
  surfaces := [⟨some cs!"s", [⟨APERTURE, [5]⟩], [[0]]⟩]
  lines := [⟨none, [], [[0]]⟩]
  solid := ⟨true, [⟨0, 0, 0⟩, ⟨1, 0, 0⟩, ⟨0, 1, 0⟩, ⟨0, 0, 1⟩], [[0, 1, 2, 3]], [[1, 2, 3], [0, 2, 3]], [[0, 1]], [], []⟩
  inBlock := [true, true, true, true]

theorem saveable_not_saved (ordS : List (Str × List Nat) → List (Str × List Nat)) (ord : List (Int × List Nat) → List (Int × List Nat)) :
    isSaveable oneTetra = true ∧
    BrepFem.write (-1) showInt (fun a b => decide (a ≤ b)) (fun v => decide (v < 0)) (fun v => decide (0 < v)) ordS ord oneTetra = .ub :=
  ⟨by decide, every_model_ub _ _ _ _ _ _ _ _ (by decide)⟩

/-- The hypotheses of `model_saved_partial` hold of the witness. -/
theorem oneTetra_sound : Sound oneTetra where
  tetrahedral := rfl
  cells := by
    intro x hx
    simp only [copies, oneTetra, List.flatMap_cons, List.flatMap_nil, List.map_cons, List.map_nil, List.append_nil, List.mem_singleton] at hx
    subst hx
    exact ⟨by simp, rfl, by simp [oneTetra]⟩
  named := by simp [oneTetra]
  vertices := by simp [oneTetra]
  apertures := by
    intro c hc a ha
    simp only [oneTetra, List.mem_singleton] at hc
    subst hc
    simp [BrepFem.find] at ha
    subst ha
    simp [oneTetra]
  facets := by
    intro c hc a ha
    simp only [oneTetra, List.mem_singleton] at hc
    subst hc
    revert ha
    decide +revert
  areas := by
    intro c hc a ha
    simp only [oneTetra, List.mem_singleton] at hc
    subst hc
    simp [BrepFem.find] at ha
  edges := by
    intro c hc a ha
    simp only [oneTetra, List.mem_singleton] at hc
    subst hc
    simp [BrepFem.find] at ha
  ownVertex := by simp [oneTetra]
  ownPolyhedron := by simp [oneTetra]

end Verif.Props.BrepFemFile
