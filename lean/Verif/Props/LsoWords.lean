import Verif.Props.LsoCases

/-!
# Which blocks of `.lso` files keep their tetrahedra, exactly (C45)
-/

namespace Verif.Props.LsoWords

open Verif Verif.Gocad Verif.GocadMesh Verif.Lso Verif.Sides Verif.Props.LsoNumbers Verif.Props.LsoRoundTrip Res

variable {D : Type} [Num D]

set_option linter.unusedSectionVars false

theorem one_le {α β : Type} (g : α → List β) {l : List α} {a : α} (h : a ∈ l) : (g a).length ≤ (l.flatMap g).length := by
  induction l with
  | nil => simp at h
  | cons x l ih =>
    rw [List.flatMap_cons, List.length_append]
    rcases List.mem_cons.1 h with rfl | h
    · omega
    · have := ih h
      omega

theorem two_le {α β : Type} (g : α → List β) {l : List α} {a b : α} (ha : a ∈ l) (hb : b ∈ l) (hn : a ≠ b) :
    (g a).length + (g b).length ≤ (l.flatMap g).length := by
  induction l with
  | nil => simp at ha
  | cons x l ih =>
    rw [List.flatMap_cons, List.length_append]
    rcases List.mem_cons.1 ha with rfl | ha'
    · rcases List.mem_cons.1 hb with rfl | hb'
      · exact absurd rfl hn
      · have := one_le g hb'
        omega
    · rcases List.mem_cons.1 hb with rfl | hb'
      · have := one_le g ha'
        omega
      · have := ih ha' hb'
        omega

theorem flatMap_single {β : Type} (g : Block D → List β) {l : List (Block D)} (hd : (l.map Block.id).Nodup) {b : Block D} (hb : b ∈ l)
    (h : ∀ b' ∈ l, b'.id ≠ b.id → g b' = []) : l.flatMap g = g b := by
  induction l with
  | nil => simp at hb
  | cons x l ih =>
    rw [List.map_cons, List.nodup_cons] at hd
    rw [List.flatMap_cons]
    rcases List.mem_cons.1 hb with rfl | hb'
    · have : l.flatMap g = [] := by
        rw [List.flatMap_eq_nil_iff]
        intro y hy
        exact h y (List.mem_cons_of_mem _ hy) fun e => hd.1 (e ▸ List.mem_map_of_mem hy)
      rw [this, List.append_nil]
    · rw [h x (by simp) fun e => hd.1 (e ▸ List.mem_map_of_mem hb'), List.nil_append]
      exact ih hd.2 hb' fun y hy => h y (List.mem_cons_of_mem _ hy)

/-- **Which blocks keep their mesh.**  A block that gathers the tetrahedra of the blocks with the same first word has its own mesh if and only if the others
of them have no tetrahedra. -/
theorem gathers_own_iff {m : Model D} (hc : Coherent m) {s : Solid D} {b : Block D} (hb : b ∈ m.blocks) {r : RBlock D}
    (hg : Gathers s (m.blocks.filter fun b' => firstWord b'.name = firstWord b.name) r) :
    SameMesh s b r ↔ ∀ b' ∈ m.blocks, b'.id ≠ b.id → firstWord b'.name = firstWord b.name → b'.tetras = [] := by
  obtain ⟨pts, σ, g1, g2, g3, g4⟩ := hg
  have hmem : b ∈ m.blocks.filter fun b' => firstWord b'.name = firstWord b.name := List.mem_filter.2 ⟨hb, by simp⟩
  constructor
  · rintro ⟨_, τ, _, e, _, _⟩ b' hb' hne hw
    have hmem' : b' ∈ m.blocks.filter fun b' => firstWord b'.name = firstWord b.name := List.mem_filter.2 ⟨hb', by simpa using hw⟩
    have h2 := two_le (fun b : Block D => b.tetras.map (List.map (σ b.id))) hmem hmem' fun e => hne (by rw [e])
    rw [← g2, e] at h2
    simp only [List.length_map] at h2
    exact List.length_eq_zero_iff.1 (by omega)
  · intro h
    have hd : ((m.blocks.filter fun b' => firstWord b'.name = firstWord b.name).map Block.id).Nodup :=
      hc.ids.sublist (List.filter_sublist.map _)
    have e : (m.blocks.filter fun b' => firstWord b'.name = firstWord b.name).flatMap (fun b => b.tetras.map (List.map (σ b.id))) =
        b.tetras.map (List.map (σ b.id)) :=
      flatMap_single (fun b : Block D => b.tetras.map (List.map (σ b.id))) hd hmem fun b' hb' hne => by
        obtain ⟨h1, h2⟩ := List.mem_filter.1 hb'
        rw [h b' h1 hne (by simpa using h2)]
        rfl
    refine ⟨pts, σ b.id, g1, g2.trans e, ?_, ?_⟩
    · intro t ht v hv t' ht' v' hv' he
      exact (g3 b hmem b hmem t ht v hv t' ht' v' hv' he).2
    · intro t ht v hv
      exact g4 b hmem t ht v hv

theorem firstWord_eq_iff {n : Str} (h : split n ≠ []) : firstWord n = n ↔ IsTok n := by
  constructor
  · intro e
    unfold firstWord at e
    obtain ⟨w, ws, hs⟩ := List.exists_cons_of_ne_nil h
    rw [hs] at e
    have hw : IsTok w := isTok_of_mem_split (s := n) (by rw [hs]; simp)
    rw [← e]
    exact hw
  · intro ht
    unfold firstWord
    rw [split_tok ht]
    rfl

theorem forall₂_mem {α β : Type} {R Q : α → β → Prop} {l : List α} {r : List β} (h : List.Forall₂ R l r) (hq : ∀ a ∈ l, ∀ b, R a b → Q a b) :
    List.Forall₂ Q l r := by
  induction h with
  | nil => exact .nil
  | cons hab _ ih => exact .cons (hq _ (by simp) _ hab) (ih fun a ha => hq a (List.mem_cons_of_mem _ ha))

/-- **C45, exactly.**  Each block of a saved model comes back with its name if and only if the name is one word, and with its own tetrahedra and points if
and only if no other block with tetrahedra has a name that begins with the same word. -/
theorem kept_iff [LawfulNum D] {m : Model D} (h : Loadable m) (hc : Coherent m) {sides : AllSides} {f : File} (hf : saveLso m sides = .ok f) :
    ∃ L : Lso.Loaded D, loadLso f = .ok L ∧ List.Forall₂ (fun b r => (r.name = b.name ↔ IsTok b.name) ∧
      (SameMesh L.solid b r ↔ ∀ b' ∈ m.blocks, b'.id ≠ b.id → firstWord b'.name = firstWord b.name → b'.tetras = [])) m.blocks L.blocks := by
  obtain ⟨L, e1, _, hF⟩ := blocks_by_word h hc hf
  refine ⟨L, e1, forall₂_mem hF ?_⟩
  rintro b hb r ⟨hn, hg⟩
  refine ⟨?_, gathers_own_iff hc hb hg⟩
  rw [hn]
  exact firstWord_eq_iff (h.names b hb)

/-- All the blocks of a saved model, each with a tetrahedron, come back with their own meshes if and only if the first words of their names differ. -/
theorem all_kept_iff [LawfulNum D] {m : Model D} (h : Loadable m) (hc : Coherent m) (ht : ∀ b ∈ m.blocks, b.tetras ≠ []) {sides : AllSides} {f : File}
    (hf : saveLso m sides = .ok f) : ∃ L : Lso.Loaded D, loadLso f = .ok L ∧
      (List.Forall₂ (SameMesh L.solid) m.blocks L.blocks ↔ (m.blocks.map fun b => firstWord b.name).Nodup) := by
  obtain ⟨L, e1, hF⟩ := kept_iff h hc hf
  refine ⟨L, e1, ?_⟩
  have hsame : List.Forall₂ (SameMesh L.solid) m.blocks L.blocks ↔
      ∀ b ∈ m.blocks, ∀ b' ∈ m.blocks, b'.id ≠ b.id → firstWord b'.name = firstWord b.name → b'.tetras = [] := by
    have key : ∀ (P : Block D → Prop) (bs : List (Block D)) (rs : List (RBlock D)),
        List.Forall₂ (fun b r => SameMesh L.solid b r ↔ P b) bs rs → (List.Forall₂ (SameMesh L.solid) bs rs ↔ ∀ b ∈ bs, P b) := by
      intro P bs rs hP
      induction hP with
      | nil => simp
      | cons hab _ ih => rw [List.forall₂_cons, List.forall_mem_cons, hab, ih]
    exact key _ _ _ (hF.imp fun b r hh => hh.2)
  rw [hsame]
  constructor
  · intro hh
    have hid := hc.ids
    rw [List.nodup_map_iff_inj_on (List.Nodup.of_map _ hid)] at *
    intro b hb b' hb' e
    by_contra hne
    refine ht b hb (hh b' hb' b hb (fun ei => hne ?_) e)
    exact hid b hb b' hb' ei
  · intro hn b hb b' hb' hne hw
    rw [List.nodup_map_iff_inj_on (List.Nodup.of_map _ hc.ids)] at hn
    exact absurd (by rw [hn b' hb' b hb hw]) hne

/-- The hypotheses hold for the two tetrahedra, whose names differ. -/
example : (∀ b ∈ twoBlocks.blocks, b.tetras ≠ []) ∧ Loadable twoBlocks ∧ Coherent twoBlocks ∧ (twoBlocks.blocks.map fun b => firstWord b.name).Nodup :=
  ⟨by decide, twoBlocks_loadable, twoBlocks_coherent, by decide⟩

end Verif.Props.LsoWords
