import Verif.Props.MlOrder

/-!
# C196: exactly which orders of the records of `.ml` files give the same model
-/

namespace Verif.Props.MlOrderExact

open Verif Verif.Gocad Verif.GocadMesh Verif.Ml Verif.Props.MlOutcomes Verif.Props.MlOrder Res

variable {D : Type} [Num D]

/-- The collections of blocks selected by `sel` have the same blocks after the records before them as after all records. -/
def SeesAll (sel : Record → Option (Str × List Nat)) (rs : List Record) : Prop :=
  ∀ pre r post, rs = pre ++ r :: post → ∀ x, sel r = some x → kept (faces pre).length (blocksOf pre).length x.2 = kept (faces rs).length (blocksOf rs).length x.2

theorem layers_iff (sel : Record → Option (Str × List Nat)) (S B : Nat) : ∀ (rs : List Record) (s b : Nat),
    layers sel s b rs = (rs.filterMap sel).map (fun x => (x.1, kept S B x.2)) ↔
      ∀ pre r post, rs = pre ++ r :: post → ∀ x, sel r = some x → kept (s + (faces pre).length) (b + (blocksOf pre).length) x.2 = kept S B x.2
  | [], s, b => by
    refine ⟨fun _ pre r post h => ?_, fun _ => rfl⟩
    cases pre <;> cases h
  | r :: rs, s, b => by
    have ih := layers_iff sel S B rs (s + (faces [r]).length) (b + (blocksOf [r]).length)
    have hc : ∀ pre : List Record, s + (faces (r :: pre)).length = s + (faces [r]).length + (faces pre).length ∧
        b + (blocksOf (r :: pre)).length = b + (blocksOf [r]).length + (blocksOf pre).length := fun pre => by
      rw [faces_cons, blocks_cons, List.length_append, List.length_append, Nat.add_assoc, Nat.add_assoc]
      exact ⟨rfl, rfl⟩
    have hsplit : layers sel s b (r :: rs) = ((r :: rs).filterMap sel).map (fun x => (x.1, kept S B x.2)) ↔
        (∀ x, sel r = some x → kept s b x.2 = kept S B x.2) ∧
          layers sel (s + (faces [r]).length) (b + (blocksOf [r]).length) rs = (rs.filterMap sel).map (fun x => (x.1, kept S B x.2)) := by
      rw [layers, List.filterMap_cons]
      cases hs : sel r with
      | none => simp
      | some x => simp
    rw [hsplit, ih]
    constructor
    · rintro ⟨h1, h2⟩ pre r' post e x hx
      cases pre with
      | nil =>
        cases e
        exact h1 x hx
      | cons p pre =>
        cases e
        rw [(hc pre).1, (hc pre).2]
        exact h2 pre r' post rfl x hx
    · intro h
      refine ⟨fun x hx => h [] r rs rfl x hx, fun pre r' post e x hx => ?_⟩
      rw [← (hc pre).1, ← (hc pre).2]
      exact h (r :: pre) r' post (by rw [e]; rfl) x hx

theorem sees_iff {sel : Record → Option (Str × List Nat)} {rs : List Record} :
    layers sel 0 0 rs = (rs.filterMap sel).map (fun x => (x.1, kept (faces rs).length (blocksOf rs).length x.2)) ↔ SeesAll sel rs := by
  rw [layers_iff]
  simp only [Nat.zero_add]
  rfl

/-- **C196, exactly, for two orders**: a file with the records of a file that loads in another order loads too, and as the same model exactly when its layers and its
fault blocks have the same blocks. -/
theorem order_iff {f g : File} {P : Parts D f} {Q : Parts D g} (h : Reordered P Q) {m : Loaded D} (hm : P.Gives m) :
    (∃ m' : Loaded D, loadMl g = .ok m' ∧ m' = { m with units := m'.units, faultBlocks := m'.faultBlocks }) ∧ ((loadMl g : Res (Loaded D)) = loadMl f ↔
      layers unitOf 0 0 Q.records = layers unitOf 0 0 P.records ∧ layers faultBlockOf 0 0 Q.records = layers faultBlockOf 0 0 P.records) := by
  obtain ⟨hn, ho, k1, k2, k3, k4, k5, k6⟩ := h
  have hb : bounded Q.records = bounded P.records := by unfold bounded; rw [k1, k2]
  have hx : missing Q.records = missing P.records := by unfold missing; rw [hb, k3]
  have hg : loadMl g = .ok { m with units := layers unitOf 0 0 Q.records, faultBlocks := layers faultBlockOf 0 0 Q.records } := by
    refine (ml_loads_iff g _).2 ⟨Q, ?_⟩
    refine ⟨hm.name.trans hn.symm, by rw [← k2]; exact hm.surfaces, by rw [hb, hx]; exact hm.boundaries, by rw [← k1, ← k2]; exact hm.faults,
      by rw [← k1, ← k2]; exact hm.horizons, by rw [← k4]; exact hm.blocks, rfl, rfl, ?_⟩
    rw [← k1, ← k2, ho]
    exact hm.meshes
  have hf : loadMl f = .ok m := (ml_loads_iff f m).2 ⟨P, hm⟩
  refine ⟨⟨_, hg, rfl⟩, ?_⟩
  rw [hg, hf, ← hm.units, ← hm.faultBlocks]
  constructor
  · intro e
    injection e with e
    exact ⟨congrArg Loaded.units e, congrArg Loaded.faultBlocks e⟩
  · rintro ⟨e1, e2⟩
    rw [e1, e2]

/-- **C196, exactly, when the layers of the first file come last**: the other file loads as the same model exactly when each of its layers and fault blocks has the blocks that
it has after all the records. -/
theorem order_last_iff {f g : File} {P : Parts D f} {Q : Parts D g} (h : Reordered P Q) (hf : LayersLast P.records) {m : Loaded D} (hm : P.Gives m) :
    (loadMl g : Res (Loaded D)) = loadMl f ↔ SeesAll unitOf Q.records ∧ SeesAll faultBlockOf Q.records := by
  rw [(order_iff h hm).2, layers_last hf (Or.inl rfl), layers_last hf (Or.inr rfl), h.kinds.faces, h.kinds.blocks, h.kinds.units, h.kinds.faultBlocks, sees_iff, sees_iff]

/-- Not vacuous: the layer of `MlOrder.layerFirst` comes before its region and does not have it; that of `MlOrder.regionFirst` has it. -/
example : ¬ SeesAll unitOf layerFirst.records ∧ SeesAll unitOf regionFirst.records :=
  ⟨fun h => absurd (sees_iff.2 h) (by decide), sees_iff.1 (by decide)⟩

end Verif.Props.MlOrderExact
