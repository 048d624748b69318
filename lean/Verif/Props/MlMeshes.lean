import Verif.Props.MlBlocks

/-!
# C58: which meshes the surfaces of saved ML models get

The mesh of every surface of a saved model that loads.
-/

set_option linter.unusedSectionVars false

namespace Verif.Props.MlMeshes

open Verif Verif.Gocad Verif.GocadMesh Verif.Ml Res
open Verif.Props.MlOutcomes (Record Records Parts ml_loads_iff Meshes meshes_iff ids)
open Verif.Props.PropHeaders (mapM'_iff)
open Verif.Props.MlGroups
open Verif.Props.MlCollections
open Verif.Props.MlLoads
open Verif.Props.MlBlocks

variable {D : Type} [Num D]

/-- A mesh with its rank. -/
abbrev Mesh (D : Type) := Nat × List (Pt D) × List Tri

/-- The mesh of a surface as it is read. -/
def shape (s : Ml.Surface D) : List (Pt D) × List Tri := (s.points.map Pt.round, s.triangles)

/-! ## Objects -/

theorem faces_take {ts : TSurf D} {rs' : List Nat} : ∀ {rs : List Nat} {k : Nat} {xs}, buildFaces ts k (rs ++ rs') = .ok xs → buildFaces ts k rs = .ok (xs.take rs.length) := by
  intro rs
  induction rs with
  | nil => intro k xs _; rfl
  | cons r rs ih =>
    intro k xs h
    rw [List.cons_append, buildFaces] at h
    obtain ⟨f, h1, h⟩ := bind_eq_ok.1 h
    obtain ⟨y, h2, h⟩ := bind_eq_ok.1 h
    rw [pure_eq] at h
    rw [← Res.ok.inj h, buildFaces, h1, ok_bind, ih h2, ok_bind]
    rfl

/-- The meshes of an object with the ranks of a group: the first ones. -/
def Gives (file : File) (p : List Nat × List (Mesh D)) : Prop :=
  ∃ (kind name : Str) (ss : List (Ml.Surface D)), file = writeTSurf kind name ss ∧ ss ≠ [] ∧ (∀ s ∈ ss, GoodSurface s) ∧ 1 + nbPoints ss ≤ W ∧ p.1.length ≤ ss.length ∧
    p.2 = p.1.zipWith (fun r s => (r, shape s)) ss

theorem zip_take {A B C : Type} (f : A → B → C) (as as' : List A) : ∀ (bs : List B), as.length ≤ bs.length →
    ((as ++ as').zipWith f bs).take as.length = as.zipWith f bs := by
  induction as with
  | nil => intro bs _; simp
  | cons a as ih =>
    intro bs h
    cases bs with
    | nil => simp at h
    | cons b bs =>
      rw [List.cons_append, List.zipWith_cons_cons, List.zipWith_cons_cons, List.length_cons, List.take_succ_cons, ih bs (by simpa using h)]

theorem read_objects [LawfulNum D] {files : List File} {ps : List (List Nat × List (Mesh D))} (h : List.Forall₂ Gives files ps) :
    readSurfaces (ps.map fun p => ⟨[], [], p.1⟩) files.flatten = .ok (ps.flatMap fun p => p.2) := by
  induction h with
  | nil => rfl
  | @cons file p files ps h1 _ ih =>
    obtain ⟨kind, name, ss, rfl, h2, h3, h4, h5, h6⟩ := h1
    have hb := buildFaces_dataOf (readName (split name)) ss h3 h4 ss [] (p.1 ++ List.replicate (ss.length - p.1.length) 0) rfl (by simp; omega)
    rw [List.length_nil] at hb
    have hx := faces_take hb
    rw [zip_take _ _ _ _ h5] at hx
    rw [List.map_cons, List.flatten_cons, readSurfaces, readTSurf_named kind name h2 h3 h4]
    simp only [Res.ok_bind]
    rw [hx, ih, List.flatMap_cons, h6]
    rfl

/-! ## The meshes of a model -/

/-- The meshes of the surfaces of the collections: each collection has as many ranks as surfaces that no collection before it has, and they get the meshes
of its first surfaces. -/
def collected (m : Model D) (start : Nat) (seen : List Nat) : List Group → List (List Nat × List (Mesh D))
  | [] => []
  | c :: cs =>
    (List.range' start (fresh seen c.2.2).length, (List.range' start (fresh seen c.2.2).length).zipWith (fun r i => (r, shape (surfaceAt m i))) c.2.2) ::
      collected m (start + (fresh seen c.2.2).length) (seen ++ c.2.2) cs

/-- The meshes of the surfaces in no collection. -/
def looseMeshes (start : Nat) (ss : List (Ml.Surface D)) : List (List Nat × List (Mesh D)) := (ss.zipIdx start).map fun x => ([x.2], [(x.2, shape x.1)])

/-- The meshes of a model, as they are read. -/
def meshesOf (m : Model D) : List (Mesh D) :=
  (collected m 0 [] (collections m) ++ looseMeshes (writtenFrom [] (collections m)).length (unclassified m)).flatMap fun p => p.2

theorem collected_ranks (m : Model D) : ∀ (cs : List Group) (start : Nat) (seen : List Nat), (collected m start seen cs).map Prod.fst = (placed start (rowsFrom seen cs)).map fun r => r.2.2 := by
  intro cs
  induction cs with
  | nil => intro start seen; rfl
  | cons c cs ih =>
    intro start seen
    rw [collected, rowsFrom, placed, List.map_cons, List.map_cons, ih]

theorem loose_ranks (ss : List (Ml.Surface D)) : ∀ start, (looseMeshes start ss).map Prod.fst = (placed start (looseRows ss)).map fun r => r.2.2 := by
  induction ss with
  | nil => intro start; rfl
  | cons s ss ih =>
    intro start
    unfold looseMeshes looseRows at *
    rw [List.zipIdx_cons, List.map_cons, List.map_cons, List.map_cons, placed, List.map_cons, ih]
    rfl

theorem placed_append (a b : List Row) : ∀ start, placed start (a ++ b) = placed start a ++ placed (start + (a.map fun r => r.2.2).sum) b := by
  induction a with
  | nil => intro start; simp [placed]
  | cons r a ih => intro start; rw [List.cons_append, placed, ih, placed, List.map_cons, List.sum_cons, List.cons_append, Nat.add_assoc]

theorem writtenFrom_length : ∀ (cs : List Group) (w seen : List Nat), (∀ i, i ∈ w ↔ i ∈ seen) → (writtenFrom w cs).length = w.length + ((rowsFrom seen cs).map fun r => r.2.2).sum := by
  intro cs
  induction cs with
  | nil => intro w seen _; simp [writtenFrom, rowsFrom]
  | cons c cs ih =>
    intro w seen h
    rw [writtenFrom, rowsFrom, List.map_cons, List.sum_cons, ih (w ++ fresh w c.2.2) (seen ++ c.2.2), List.length_append, fresh_congr h, Nat.add_assoc]
    intro i
    rw [List.mem_append, List.mem_append, ← h i]
    have key : ∀ (is w : List Nat), i ∈ w ∨ i ∈ fresh w is ↔ i ∈ w ∨ i ∈ is := by
      intro is
      induction is with
      | nil => intro w; simp [fresh]
      | cons j is ih =>
        intro w
        rw [fresh]
        by_cases hj : j ∈ w
        · rw [if_pos hj, ih, List.mem_cons]
          constructor
          · rintro (h | h)
            · exact .inl h
            · exact .inr (.inr h)
          · rintro (h | rfl | h)
            · exact .inl h
            · exact .inl hj
            · exact .inr h
        · rw [if_neg hj, List.mem_cons, List.mem_cons]
          have := ih (j :: w)
          rw [List.mem_cons] at this
          constructor
          · rintro (h | h | h)
            · exact .inl h
            · exact .inr (.inl h)
            · rcases this.1 (.inr h) with (h | h) | h
              · exact .inr (.inl h)
              · exact .inl h
              · exact .inr (.inr h)
          · rintro (h | h | h)
            · exact .inl h
            · exact .inr (.inl h)
            · rcases this.2 (.inr h) with (h | h) | h
              · exact .inr (.inl h)
              · exact .inl h
              · exact .inr (.inr h)
    exact key _ _

theorem ranks (m : Model D) : (collected m 0 [] (collections m) ++ looseMeshes (writtenFrom [] (collections m)).length (unclassified m)).map Prod.fst =
    (placed 0 (rows m)).map fun r => r.2.2 := by
  rw [List.map_append, collected_ranks, loose_ranks, rows, placed_append, List.map_append, writtenFrom_length _ [] [] (fun _ => Iff.rfl)]
  simp

theorem collected_gives [LawfulNum D] {m : Model D} (g : Sane m) : ∀ {cs : List Group} {files : List File} {start : Nat} {seen : List Nat}, (∀ c ∈ cs, c ∈ collections m) →
    (∀ r ∈ rowsFrom seen cs, r.2.2 ≠ 0) →
    List.Forall₂ (fun (c : Group) file => (do
      let name ← c.2.1
      let kind ← c.1
      let surfaces ← Res.mapM' (surfaceOf m) c.2.2
      pure (writeTSurf kind name surfaces)) = .ok file) cs files → List.Forall₂ Gives files (collected m start seen cs) := by
  intro cs files start seen hc h0 h
  induction h generalizing start seen with
  | nil => exact .nil
  | @cons c file cs files h1 _ ih =>
    rw [collected]
    rw [rowsFrom, List.forall_mem_cons] at h0
    refine .cons ?_ (ih (fun c h => hc c (List.mem_cons_of_mem _ h)) h0.2)
    obtain ⟨name, e1, h1⟩ := bind_eq_ok.1 h1
    obtain ⟨kind, e2, h1⟩ := bind_eq_ok.1 h1
    obtain ⟨ss, e3, h1⟩ := bind_eq_ok.1 h1
    rw [pure_eq] at h1
    have f2 := mapM'_iff.1 e3
    have hl : ss.length = c.2.2.length := f2.length_eq.symm
    have at_ : ∀ {i : Nat} {s : Ml.Surface D}, surfaceOf m i = .ok s → s = surfaceAt m i ∧ s ∈ m.surfaces := by
      intro i s hs
      unfold surfaceOf at hs
      unfold surfaceAt
      cases hf : m.surfaces.find? (fun s => s.id = i) with
      | none => rw [hf] at hs; cases hs
      | some x =>
        rw [hf] at hs
        rw [← Res.ok.inj hs]
        exact ⟨rfl, List.mem_of_find?_eq_some hf⟩
    have hss : ss = c.2.2.map (surfaceAt m) := by
      clear h1 e3 hl h0 ih hc
      generalize c.2.2 = l at f2
      induction f2 with
      | nil => rfl
      | cons h _ ih => rw [List.map_cons, ← ih, (at_ h).1]
    refine ⟨kind, name, ss, (Res.ok.inj h1).symm, ?_, ?_, g.points c (hc c List.mem_cons_self) ss e3, ?_, ?_⟩
    · intro e
      rw [e] at hl
      have := fresh_le c.2.2 seen
      have := h0.1
      simp only [List.length_nil] at hl
      dsimp only at this
      omega
    · intro s hs
      obtain ⟨i, _, e⟩ := mapM_mem e3 hs
      exact g.meshes s (at_ e).2
    · rw [hl, List.length_range']
      exact fresh_le _ _
    · rw [hss, List.zipWith_map_right]

theorem loose_gives {m : Model D} (g : Sane m) : ∀ (ss : List (Ml.Surface D)) (start : Nat), (∀ s ∈ ss, s ∈ unclassified m) →
    List.Forall₂ Gives (ss.map fun s => writeTSurf cs!"boundary" (componentName s.name) [s]) (looseMeshes start ss) := by
  intro ss
  induction ss with
  | nil => intro start _; exact .nil
  | cons s ss ih =>
    intro start h
    have hs := h s List.mem_cons_self
    refine .cons ⟨cs!"boundary", componentName s.name, [s], rfl, by simp, ?_, ?_, Nat.le_refl _, rfl⟩ (ih _ fun s h' => h s (List.mem_cons_of_mem _ h'))
    · intro x hx
      rw [List.mem_singleton.1 hx]
      exact g.meshes s (List.mem_of_mem_filter hs)
    · have := g.loose s hs
      simpa [nbPoints] using this

/-- **The meshes of saved models**: when a saved model loads, the surfaces of a collection that no collection before it has get the meshes of its first
surfaces, and the surfaces in no collection get their own. -/
theorem meshes_back [LawfulNum D] (hp : PlainNumbers D) {m : Model D} (g : Sane m) {sides : Sides.AllSides} {f : File} (hf : saveMl m sides = .ok f) {L : Loaded D}
    (hL : loadMl f = .ok L) : L.meshes = meshesOf m := by
  obtain ⟨t⟩ := text_of hf
  obtain ⟨P, hP⟩ := (ml_loads_iff f L).1 hL
  obtain ⟨hw, hd, ho, _⟩ := (saved_loads_iff hp g hf).1 ⟨L, hL⟩
  obtain ⟨R, r1, r2, r3, _⟩ := records_written hp t hw g.size
  obtain ⟨e1, e2⟩ := records_unique (parts_records t P) r1
  have h0 := (counts_rows m).2 ho
  unfold Distinct at hd
  rw [← names_rows] at hd
  have hm := hP.meshes
  rw [e1, e2, r2, r3, placed_ids hd h0, ← ranks] at hm
  have h := t.objects
  unfold writeModelSurfaces at h
  obtain ⟨colls, h1, h⟩ := bind_eq_ok.1 h
  rw [pure_eq] at h
  rw [← Res.ok.inj h, ← List.flatten_append] at hm
  rw [mapM'_iff] at h1
  have read := read_objects (forall₂_append (collected_gives g (start := 0) (seen := []) (fun _ h => h) (fun r hr => h0 r (List.mem_append_left _ hr)) h1)
    (loose_gives g (unclassified m) (writtenFrom [] (collections m)).length fun _ h => h))
  have := (meshes_iff (gs := (collected m 0 [] (collections m) ++ looseMeshes (writtenFrom [] (collections m)).length (unclassified m)).map fun p => ⟨[], [], p.1⟩)).2
    (by rw [List.map_map]; exact hm)
  exact Res.ok.inj (this.symm.trans read)

/-! ## The meshes that are kept -/

/-- The meshes of the surfaces of the collections, when every surface gets its own. -/
def ownFrom (m : Model D) (start : Nat) (seen : List Nat) : List Group → List (List (Mesh D))
  | [] => []
  | c :: cs => (List.range' start (fresh seen c.2.2).length).zipWith (fun r i => (r, shape (surfaceAt m i))) (fresh seen c.2.2) ::
      ownFrom m (start + (fresh seen c.2.2).length) (seen ++ c.2.2) cs

/-- The meshes of the surfaces in the order they are written. -/
def ownMeshes (m : Model D) : List (Mesh D) :=
  (ownFrom m 0 [] (collections m)).flatten ++ ((unclassified m).zipIdx (writtenFrom [] (collections m)).length).map fun x => (x.2, shape x.1)

/-- The first surfaces of each collection, as many as no collection before it has, have the meshes of these. -/
def FirstOnes (m : Model D) (seen : List Nat) : List Group → Prop
  | [] => True
  | c :: cs => (c.2.2.take (fresh seen c.2.2).length).map (fun i => shape (surfaceAt m i)) = (fresh seen c.2.2).map (fun i => shape (surfaceAt m i)) ∧
      FirstOnes m (seen ++ c.2.2) cs

theorem zip_eq {A : Type} (f : Nat → A) : ∀ (n start : Nat) (a b : List Nat), n ≤ a.length → b.length = n →
    ((List.range' start n).zipWith (fun r i => (r, f i)) a = (List.range' start n).zipWith (fun r i => (r, f i)) b ↔ (a.take n).map f = b.map f) := by
  intro n
  induction n with
  | zero => intro start a b _ hb; rw [List.length_eq_zero_iff.1 hb]; simp
  | succ n ih =>
    intro start a b ha hb
    cases a with
    | nil => simp at ha
    | cons x a =>
      cases b with
      | nil => simp at hb
      | cons y b =>
        rw [List.range'_succ, List.zipWith_cons_cons, List.zipWith_cons_cons, List.take_succ_cons, List.map_cons, List.map_cons, List.cons.injEq, List.cons.injEq,
          ih (start + 1) a b (by simpa using ha) (by simpa using hb)]
        simp

theorem collected_eq_iff (m : Model D) : ∀ (cs : List Group) (start : Nat) (seen : List Nat),
    ((collected m start seen cs).flatMap fun p => p.2) = (ownFrom m start seen cs).flatten ↔ FirstOnes m seen cs := by
  intro cs
  induction cs with
  | nil => intro start seen; simp [collected, ownFrom, FirstOnes]
  | cons c cs ih =>
    intro start seen
    rw [collected, ownFrom, FirstOnes, List.flatMap_cons, List.flatten_cons, ← ih (start + (fresh seen c.2.2).length) (seen ++ c.2.2)]
    have hl := fresh_le c.2.2 seen
    rw [← zip_eq (fun i => shape (surfaceAt m i)) _ start _ _ hl rfl]
    constructor
    · intro h
      exact List.append_inj h (by simp [hl])
    · rintro ⟨h1, h2⟩
      dsimp only
      rw [h1, h2]

theorem collected_length (m : Model D) : ∀ (cs : List Group) (start : Nat) (seen : List Nat),
    ((collected m start seen cs).flatMap fun p => p.2).length = (ownFrom m start seen cs).flatten.length := by
  intro cs
  induction cs with
  | nil => intro start seen; rfl
  | cons c cs ih =>
    intro start seen
    have hl := fresh_le c.2.2 seen
    rw [collected, ownFrom, List.flatMap_cons, List.flatten_cons, List.length_append, List.length_append, ih]
    simp [hl]

/-- **When every surface keeps its mesh**: exactly when the first surfaces of each collection, as many as no collection before it has, have the meshes
of these. -/
theorem meshes_kept_iff [LawfulNum D] (hp : PlainNumbers D) {m : Model D} (g : Sane m) {sides : Sides.AllSides} {f : File} (hf : saveMl m sides = .ok f) {L : Loaded D}
    (hL : loadMl f = .ok L) : L.meshes = ownMeshes m ↔ FirstOnes m [] (collections m) := by
  rw [meshes_back hp g hf hL, meshesOf, ownMeshes, List.flatMap_append, ← collected_eq_iff m (collections m) 0 []]
  have e : ((looseMeshes (writtenFrom [] (collections m)).length (unclassified m)).flatMap fun p => p.2) =
      ((unclassified m).zipIdx (writtenFrom [] (collections m)).length).map fun x => (x.2, shape x.1) := by
    unfold looseMeshes
    rw [List.flatMap_map]
    exact MlNames.flatMap_one _ _
  rw [e]
  exact List.append_left_inj _

/-- The surfaces that no collection before has come first in each collection. -/
def NewFirst (seen : List Nat) : List Group → Prop
  | [] => True
  | c :: cs => fresh seen c.2.2 <+: c.2.2 ∧ NewFirst (seen ++ c.2.2) cs

/-- Every surface keeps its mesh when the surfaces of each collection that no collection before it has come first. -/
theorem meshes_kept [LawfulNum D] (hp : PlainNumbers D) {m : Model D} (g : Sane m) {sides : Sides.AllSides} {f : File} (hf : saveMl m sides = .ok f) {L : Loaded D}
    (hL : loadMl f = .ok L) (h : NewFirst [] (collections m)) : L.meshes = ownMeshes m := by
  rw [meshes_kept_iff hp g hf hL]
  revert h
  generalize collections m = cs
  generalize ([] : List Nat) = seen
  induction cs generalizing seen with
  | nil => intro _; trivial
  | cons c cs ih =>
    rintro ⟨h1, h2⟩
    refine ⟨?_, ih _ h2⟩
    rw [← List.prefix_iff_eq_take.1 h1]

/-! ### Instances -/

/-- The model with a shared surface, which comes first in its second collection: the third surface gets another mesh. -/
example : ¬FirstOnes MlCases.shared [] (collections MlCases.shared) := by
  intro h
  have := h.2.1
  revert this
  decide +kernel

example : ∃ L : Loaded Int, L.meshes = ownMeshes MlCases.full := by
  obtain ⟨f, L, hf, hL, _⟩ := MlRoundTrip.round_trip MlCases.plain_int MlCases.full_good
  exact ⟨L, meshes_kept MlCases.plain_int full_sane hf hL ⟨List.prefix_refl _, List.prefix_refl _, List.prefix_refl _, trivial⟩⟩

end Verif.Props.MlMeshes
