import Verif.Props.MlOutcomes

/-!
# Order of the records of `.ml` files

The records of a `.ml` file name each other: surfaces name groups, regions name surfaces, and layers and fault blocks name regions.
-/

namespace Verif.Props.MlOrder

open Verif Verif.Gocad Verif.GocadMesh Verif.Ml Verif.Props.MlOutcomes Res

variable {D : Type} [Num D]

/-- The records of each kind are the same, in the same order. -/
structure SameKinds (rs qs : List Record) : Prop where
  names : names rs = names qs
  faces : faces rs = faces qs
  outside : outsideOf rs = outsideOf qs
  blocks : blocksOf rs = blocksOf qs
  units : rs.filterMap unitOf = qs.filterMap unitOf
  faultBlocks : rs.filterMap faultBlockOf = qs.filterMap faultBlockOf

/-- No layer or fault block comes before a surface or a block. -/
def LayersLast (rs : List Record) : Prop := ∃ pre post, rs = pre ++ post ∧ (∀ r ∈ pre, unitOf r = none ∧ faultBlockOf r = none) ∧ faces post = [] ∧ blocksOf post = []

/-- Two files that have the same records of each kind, the same name and the same objects. -/
structure Reordered {f g : File} (P : Parts D f) (Q : Parts D g) : Prop where
  name : Q.name = P.name
  objects : Q.objects = P.objects
  kinds : SameKinds P.records Q.records

/-- **The property**: the order of the records is free, as long as each one only names records before it, as `Parts` requires of groups and surfaces. -/
def AnyOrder (D : Type) [Num D] : Prop := ∀ (f g : File) (P : Parts D f) (Q : Parts D g), Reordered P Q → (loadMl g : Res (Loaded D)) = loadMl f

theorem layers_none (sel : Record → Option (Str × List Nat)) : ∀ (s b : Nat) (rs : List Record), (∀ r ∈ rs, sel r = none) → layers sel s b rs = []
  | _, _, [], _ => rfl
  | s, b, r :: rs, h => by
    rw [layers, h r (by simp), layers_none sel _ _ rs fun x hx => h x (by simp [hx])]
    rfl

theorem faces_cons (r : Record) (rs : List Record) : faces (r :: rs) = faces [r] ++ faces rs := List.filterMap_append (l := [r])

theorem blocks_cons (r : Record) (rs : List Record) : blocksOf (r :: rs) = blocksOf [r] ++ blocksOf rs := List.filterMap_append (l := [r])

theorem layers_alone (sel : Record → Option (Str × List Nat)) : ∀ (s b : Nat) (rs : List Record), faces rs = [] → blocksOf rs = [] →
    layers sel s b rs = (rs.filterMap sel).map fun x => (x.1, kept s b x.2)
  | _, _, [], _, _ => rfl
  | s, b, r :: rs, h1, h2 => by
    rw [faces_cons, List.append_eq_nil_iff] at h1
    rw [blocks_cons, List.append_eq_nil_iff] at h2
    rw [layers, h1.1, h2.1]
    simp only [List.length_nil, Nat.add_zero]
    rw [layers_alone sel s b rs h1.2 h2.2, List.filterMap_cons]
    cases sel r <;> rfl

/-- When the layers come last, each one is about all the blocks. -/
theorem layers_last {rs : List Record} (h : LayersLast rs) {sel : Record → Option (Str × List Nat)} (hs : sel = unitOf ∨ sel = faultBlockOf) :
    layers sel 0 0 rs = (rs.filterMap sel).map fun x => (x.1, kept (faces rs).length (blocksOf rs).length x.2) := by
  obtain ⟨pre, post, rfl, h1, h2, h3⟩ := h
  have hn : ∀ r ∈ pre, sel r = none := fun r hr => by
    rcases hs with rfl | rfl
    · exact (h1 r hr).1
    · exact (h1 r hr).2
  rw [layers_append, layers_none sel _ _ _ hn, List.nil_append, layers_alone sel _ _ _ h2 h3, List.filterMap_append, List.filterMap_eq_nil_iff.2 hn, List.nil_append]
  have e1 : faces (pre ++ post) = faces pre := by rw [faces, List.filterMap_append]; show faces pre ++ faces post = _; rw [h2, List.append_nil]
  have e2 : blocksOf (pre ++ post) = blocksOf pre := by rw [blocksOf, List.filterMap_append]; show blocksOf pre ++ blocksOf post = _; rw [h3, List.append_nil]
  rw [e1, e2, Nat.zero_add, Nat.zero_add]

/-- What holds: files whose layers and fault blocks come last load as the same model, whatever the order of their other records. -/
theorem order_partial {f g : File} {P : Parts D f} {Q : Parts D g} (h : Reordered P Q) (hf : LayersLast P.records) (hg : LayersLast Q.records) {m : Loaded D}
    (hm : P.Gives m) : loadMl f = .ok m ∧ loadMl g = .ok m := by
  obtain ⟨hn, ho, k1, k2, k3, k4, k5, k6⟩ := h
  refine ⟨(ml_loads_iff f m).2 ⟨P, hm⟩, (ml_loads_iff g m).2 ⟨Q, ?_⟩⟩
  have hb : bounded Q.records = bounded P.records := by unfold bounded; rw [k1, k2]
  have hx : missing Q.records = missing P.records := by unfold missing; rw [hb, k3]
  refine ⟨hm.name.trans hn.symm, by rw [hm.surfaces, k2], by rw [hm.boundaries, hb, hx], by rw [hm.faults, k1, k2], by rw [hm.horizons, k1, k2], by rw [← k4]; exact hm.blocks, ?_, ?_, ?_⟩
  · rw [hm.units, layers_last hf (Or.inl rfl), layers_last hg (Or.inl rfl), k2, k4, k5]
  · rw [hm.faultBlocks, layers_last hf (Or.inr rfl), layers_last hg (Or.inr rfl), k2, k4, k6]
  · rw [← k1, ← k2, ho]
    exact hm.meshes

/-- A layer is about the blocks before it: those that come later are left out, without a report. -/
theorem layer_blind {f : File} {m : Loaded D} {P : Parts D f} (hm : P.Gives m) {pre post : List Record} {n : Str} {ns : List Nat} (h : P.records = pre ++ .layer n ns :: post) :
    (n, kept (faces pre).length (blocksOf pre).length ns) ∈ m.units ∧ ∀ k ∈ kept (faces pre).length (blocksOf pre).length ns, k < (blocksOf pre).length := by
  constructor
  · rw [hm.units, h, layers_append, layers]
    simp [unitOf]
  · intro k hk
    unfold kept at hk
    have := (List.mem_filter.1 hk).2
    simp only [decide_eq_true_eq] at this
    exact this.1

/-! ## A layer before its region -/

/-- A layer of the region that has the number 4. -/
def layer : File := [cs!"LAYER u", cs!"4 0"]

/-- A region between the two surfaces. -/
def region : File := [cs!"REGION 4 r", cs!"+1 -2 0"]

/-- The objects of the two surfaces. -/
def objects : File := [cs!"GOCAD TSurf 1", cs!"HEADER {", cs!"name:h", cs!"}", cs!"TFACE", cs!"VRTX 1 0 0 0", cs!"VRTX 2 1 0 0", cs!"VRTX 3 0 1 0", cs!"TRGL 1 2 3",
  cs!"TFACE", cs!"VRTX 4 0 0 1", cs!"VRTX 5 1 0 1", cs!"VRTX 6 0 1 1", cs!"TRGL 4 5 6", cs!"END"]

/-- A model of two surfaces. -/
def model (records : File) : File := cs!"GOCAD Model3d 1" :: (writeHeader none ++ (writeCrs {} ++ (cs!"TSURF h" :: cs!"TFACE 1 top h" :: cs!"TFACE 2 top h" :: (records ++ cs!"END" :: objects))))

def layerRecord : Record := .layer cs!"u" [4]

def regionRecord : Record := .block cs!"r" [1, -2]

theorem layer_listed (rest : File) : Listed parseIndex 0 (cs!"4 0" :: rest) [4] rest :=
  ⟨[], cs!"4 0", [cs!"4"], cs!"0", [], rfl, by decide, by decide, .cons ⟨by decide, by decide⟩ .nil⟩

theorem region_listed (rest : File) : Listed parseInt 0 (cs!"+1 -2 0" :: rest) [1, -2] rest :=
  ⟨[], cs!"+1 -2 0", [cs!"+1", cs!"-2"], cs!"0", [], rfl, by decide, by decide, .cons ⟨by decide, by decide⟩ (.cons ⟨by decide, by decide⟩ .nil)⟩

theorem surfaces_read {f : File} {rs : List Record} (h : Records f rs objects) :
    Records (cs!"TSURF h" :: cs!"TFACE 1 top h" :: cs!"TFACE 2 top h" :: f) (.tsurf cs!"h" :: .tface cs!"top" cs!"h" :: .tface cs!"top" cs!"h" :: rs) objects :=
  .tsurf (w := cs!"h") (ws := []) rfl (by decide) (.tface (a := cs!"1") (w := cs!"h") (ws := []) rfl (by decide) (.tface (a := cs!"2") (w := cs!"h") (ws := []) rfl (by decide) h))

theorem end_read : Records (cs!"END" :: objects) [] objects := .done rfl

/-- The parts of the model. -/
def parts {records : File} (rs : List Record) (hr : Records (records ++ cs!"END" :: objects) rs objects) (hn : names rs = []) (hf : faces rs = [])
    (hfine : FineFrom [.tsurf cs!"h", .tface cs!"top" cs!"h", .tface cs!"top" cs!"h"] rs) : Parts Int (model records) where
  title := cs!"GOCAD Model3d 1"
  body := writeHeader none ++ (writeCrs {} ++ (cs!"TSURF h" :: cs!"TFACE 1 top h" :: cs!"TFACE 2 top h" :: (records ++ cs!"END" :: objects)))
  titled := ⟨[], rfl, rfl, by simp⟩
  name := none
  afterHeader := writeCrs {} ++ (cs!"TSURF h" :: cs!"TFACE 1 top h" :: cs!"TFACE 2 top h" :: (records ++ cs!"END" :: objects))
  header := readHeader_good (by simp) _
  crs := {}
  afterCrs := cs!"TSURF h" :: cs!"TFACE 1 top h" :: cs!"TFACE 2 top h" :: (records ++ cs!"END" :: objects)
  system := readCrs_default _
  records := .tsurf cs!"h" :: .tface cs!"top" cs!"h" :: .tface cs!"top" cs!"h" :: rs
  objects := objects
  recordsRead := surfaces_read hr
  fine := ⟨trivial, by simp [Fine, names], by simp [Fine, names], hfine⟩
  distinct := by
    show (cs!"h" :: names rs).Nodup
    rw [hn]
    decide
  known := by
    intro n hx
    have hx : n ∈ cs!"h" :: names rs := hx
    rw [hn, List.mem_singleton] at hx
    subst hx
    show Known (feature ((cs!"top", cs!"h") :: (cs!"top", cs!"h") :: faces rs) cs!"h")
    rw [hf]
    unfold Known
    decide

theorem region_fine (before : List Record) (h : (faces before).length = 2) : Fine before regionRecord := by
  refine ⟨by decide, fun z hz => ?_⟩
  simp only [List.mem_cons, List.not_mem_nil, or_false] at hz
  rw [h]
  rcases hz with rfl | rfl <;> exact ⟨by decide, by decide⟩

/-- The layer after the region. -/
def regionFirst : Parts Int (model (region ++ layer)) :=
  parts [regionRecord, layerRecord] (.block (a := cs!"4") (w := cs!"r") (ws := []) rfl (by decide) (by decide) (region_listed _)
    (.layer (w := cs!"u") (ws := []) rfl (by decide) (layer_listed _) end_read)) rfl rfl ⟨region_fine _ rfl, trivial, trivial⟩

/-- The layer before the region. -/
def layerFirst : Parts Int (model (layer ++ region)) :=
  parts [layerRecord, regionRecord] (.layer (w := cs!"u") (ws := []) rfl (by decide) (layer_listed _)
    (.block (a := cs!"4") (w := cs!"r") (ws := []) rfl (by decide) (by decide) (region_listed _) end_read)) rfl rfl ⟨trivial, region_fine _ rfl, trivial⟩

theorem reordered : Reordered regionFirst layerFirst := ⟨rfl, rfl, rfl, rfl, rfl, rfl, rfl, rfl⟩

/-- Test on two files: the layer has its region in the first one, and no region in the second one. -/
theorem layer_emptied : ((loadMl (model (region ++ layer)) : Res (Loaded Int)).bind fun m => .ok m.units) = .ok [(cs!"u", [0])] ∧
    ((loadMl (model (layer ++ region)) : Res (Loaded Int)).bind fun m => .ok m.units) = .ok [(cs!"u", [])] := by
  constructor <;> decide +kernel

theorem not_anyOrder : ¬ AnyOrder Int := by
  intro h
  have e := h _ _ _ _ reordered
  have h2 := layer_emptied.2
  rw [e, layer_emptied.1] at h2
  exact absurd h2 (by decide)

/-! Non-vacuity. -/

example : LayersLast regionFirst.records :=
  ⟨[.tsurf cs!"h", .tface cs!"top" cs!"h", .tface cs!"top" cs!"h", regionRecord], [layerRecord], rfl, by simp [unitOf, faultBlockOf, regionRecord], rfl, rfl⟩

example : ¬ LayersLast layerFirst.records := by
  intro h
  have := layers_last h (Or.inl rfl)
  revert this
  decide

end Verif.Props.MlOrder
