import Verif.Props.FemFile

/-!
# C109: the keyword lines of every FEFLOW file
-/

namespace Verif.Props.FemSections

open Verif Verif.Fem Verif.Props.FemRanges Verif.Props.FemValues Verif.Props.FemFeatures Verif.Props.FemFile

variable {D : Type}

/-- The attributes with the name of a keyword. -/
def named (attrs : List (Attr D)) : List Str := (attrs.map Attr.name).filter fun n => KEYWORDS.contains n

/-- The keyword lines of the file of a mesh, those that are names of attributes included. -/
def keysWith (m : Mesh D) : List Str :=
  [cs!"PROBLEM:", cs!"CLASS (v.7.202.18152)", cs!"DIMENS", cs!"SCALE", cs!"VARNODE", cs!"XYZCOOR", cs!"REF_DIS_I"] ++ named (nodalAttrs m) ++
    [cs!"REF_DISE_I"] ++ named (elementAttrs m) ++
    (if m.vertexBlocks.isSome then [cs!"NODALSETS"] else []) ++ (if m.polyhedronBlocks.isSome then [cs!"ELEMENTALSETS"] else []) ++
    [cs!"GRAVITY"] ++ (if m.facets = none ∧ m.edges = none then [] else [cs!"DFE"]) ++ [cs!"END"]

theorem keyLines_plain {f : File} (hf : ∀ l ∈ f, Plain l) (r : Str) : keyLines (lines f ++ r) = keyLines r := by
  rw [keyLines_lines fun l hl => (hf l hl).1]
  have : f.filter (fun l => KEYWORDS.contains l) = [] := by
    rw [List.filter_eq_nil_iff]
    intro l hl h
    exact (hf l hl).2 (by simpa using h)
  rw [this]
  rfl

theorem keys_bodies [DecidableEq D] {toStr : D → Str} {le : D → D → Bool} {n : Nat} (hs : ∀ v, '\n' ∉ toStr v) {attrs : List (Attr D)} {bodies : List File}
    (hn : ∀ a ∈ attrs, '\n' ∉ a.name) (h : Res.mapM' (fun a => writeProperty toStr le n a.name a.values) attrs = .ok bodies) (r : Str) :
    keyLines (lines bodies.flatten ++ r) = named attrs ++ keyLines r := by
  induction attrs generalizing bodies with
  | nil => cases h; rfl
  | cons a attrs ih =>
    rw [Res.mapM'_cons] at h
    obtain ⟨b, hb, h⟩ := Res.bind_eq_ok.1 h
    obtain ⟨bs, hbs, h⟩ := Res.bind_eq_ok.1 h
    cases h
    unfold writeProperty at hb
    obtain ⟨dist, -, hb⟩ := Res.bind_eq_ok.1 hb
    cases hb
    have e : lines ((a.name :: distributionLines toStr le dist) :: bs).flatten ++ r =
        lines [a.name] ++ (lines (distributionLines toStr le dist) ++ (lines bs.flatten ++ r)) := by simp [lines]
    rw [e, keyLines_lines (by intro l hl; rw [List.mem_singleton] at hl; rw [hl]; exact hn a (by simp)), keyLines_plain (by
      intro l hl
      obtain ⟨v, -, hl⟩ := List.mem_flatMap.1 hl
      exact plain_chunks (hs v) _ l hl), ih (fun x hx => hn x (by simp [hx])) hbs]
    unfold named
    rw [List.map_cons, ← List.append_assoc, ← List.filter_append]
    rfl

/-- **C109, the keyword lines of every file.**  They are those of the sections, in order, and the names of the written attributes that are keywords, where the
attributes are written. -/
theorem all_keys [Num D] [LawfulNum D] [DecidableEq D] {toStr : D → Str} {le : D → D → Bool} {neg pos : D → Bool}
    {ordS : List (Str × List Nat) → List (Str × List Nat)} {ord : List (D × List Nat) → List (D × List Nat)} {m : Mesh D} {t : Str}
    (hordS : ∀ l, (ordS l).Perm l) (hstr : ∀ v, '\n' ∉ toStr v) (hattr : ∀ a ∈ nodalAttrs m ++ elementAttrs m, '\n' ∉ a.name)
    (hblocks : ∀ bs, m.vertexBlocks = some bs → ∀ b ∈ bs, ∀ n ∈ b, '\n' ∉ n)
    (h : saveFem toStr le neg pos ordS ord m = .ok t) : keyLines t = keysWith m := by
  unfold saveFem at h
  obtain ⟨nodes, hnodes, h⟩ := Res.bind_eq_ok.1 h
  obtain ⟨elements, helements, h⟩ := Res.bind_eq_ok.1 h
  obtain ⟨sets, hsets, h⟩ := Res.bind_eq_ok.1 h
  obtain ⟨dfe, hdfe, h⟩ := Res.bind_eq_ok.1 h
  cases h
  simp only [List.append_assoc]
  have hd : '\n' ∉ (cs!" " ++ showNat m.points.length ++ cs!" " ++ showNat m.polyhedra.length ++ cs!" 0 1 0 0 0 0 0 1 0 0 0 0 0 0 0 0") := by
    simp only [List.mem_append, not_or]
    exact ⟨⟨⟨⟨by decide, nl_showNat _⟩, by decide⟩, nl_showNat _⟩, by decide⟩
  have h1 : ∀ r, keyLines (lines (writeHead m) ++ r) = [cs!"PROBLEM:", cs!"CLASS (v.7.202.18152)", cs!"DIMENS", cs!"SCALE"] ++ keyLines r := by
    intro r
    rw [keyLines_lines (by
      intro l hl
      simp only [writeHead, List.mem_cons, List.not_mem_nil, or_false] at hl
      rcases hl with rfl | rfl | rfl | rfl | rfl | rfl | rfl
      · decide
      · decide
      · decide
      · decide
      · exact hd
      · decide
      · decide)]
    congr 1
  have h2 : ∀ r, keyLines (lines (writeVarNode m) ++ r) = cs!"VARNODE" :: keyLines r := by
    intro r
    refine keyLines_section (by decide) ?_ r
    intro l hl
    rcases List.mem_cons.1 hl with rfl | hl
    · exact plain_blank (s := showNat m.polyhedra.length ++ cs!" 4 4") (by
        simp only [List.mem_append, not_or]; exact ⟨nl_showNat _, by decide⟩)
    · obtain ⟨vs, _, rfl⟩ := List.mem_map.1 hl
      refine plain_blank (s := cs!"6 " ++ vs.flatMap fun v => showNat (v + 1) ++ cs!" ") ?_
      simp only [List.mem_append, not_or]
      exact ⟨by decide, nl_nums _ (by intro n; simp [nl_showNat]) vs⟩
  have h3 : ∀ r, keyLines (lines (writeNodeCoordinates m) ++ r) = cs!"XYZCOOR" :: keyLines r := by
    intro r
    refine keyLines_section (by decide) ?_ r
    intro l hl
    obtain ⟨p, _, rfl⟩ := List.mem_map.1 hl
    refine plain_blank (s := Num.fmt p.x ++ cs!", " ++ Num.fmt p.y ++ cs!", " ++ Num.fmt p.z) ?_
    have hf : ∀ v : D, '\n' ∉ Num.fmt v := fun v => nl_not_mem (LawfulNum.fmt_tok v)
    simp only [List.mem_append, not_or]
    exact ⟨⟨⟨⟨hf _, by decide⟩, hf _⟩, by decide⟩, hf _⟩
  have h4 : ∀ r, keyLines (lines nodes ++ r) = cs!"REF_DIS_I" :: (named (nodalAttrs m) ++ keyLines r) := by
    intro r
    unfold writeRefNodalDist at hnodes
    obtain ⟨bodies, hb, hn⟩ := Res.bind_eq_ok.1 hnodes
    cases hn
    have e := keyLines_section (k := cs!"REF_DIS_I") (f := (cs!" " ++ showNat (3 + (nodalAttrs m).length) ++ cs!", " ++ showNat m.points.length ++ cs!", 0") ::
      (writeCoordDist le cs!"X" (m.points.map Pt.x) ++ writeCoordDist le cs!"Y" (m.points.map Pt.y) ++
      writeCoordDist le cs!"Z" (m.points.map Pt.z))) (by decide) (by
        intro l hl
        simp only [List.mem_cons, List.mem_append] at hl
        rcases hl with rfl | (hl | hl) | hl
        · refine plain_blank (s := showNat (3 + (nodalAttrs m).length) ++ cs!", " ++ showNat m.points.length ++ cs!", 0") ?_
          simp only [List.mem_append, not_or]
          exact ⟨⟨⟨nl_showNat _, by decide⟩, nl_showNat _⟩, by decide⟩
        · exact plain_coordDist le ⟨by decide, by decide⟩ _ l hl
        · exact plain_coordDist le ⟨by decide, by decide⟩ _ l hl
        · exact plain_coordDist le ⟨by decide, by decide⟩ _ l hl) (lines bodies.flatten ++ r)
    rw [keys_bodies hstr (fun a ha => hattr a (by simp [ha])) hb] at e
    rw [← e]
    simp [lines]
  have h5 : ∀ r, keyLines (lines elements ++ r) = cs!"REF_DISE_I" :: (named (elementAttrs m) ++ keyLines r) := by
    intro r
    unfold writeRefElementDist at helements
    obtain ⟨bodies, hb, hn⟩ := Res.bind_eq_ok.1 helements
    cases hn
    have e := keyLines_section (k := cs!"REF_DISE_I") (f := [cs!" " ++ showInt (nbElemAtt m) ++ cs!", " ++ showNat m.polyhedra.length ++ cs!", 0"]) (by decide) (by
        intro l hl
        rw [List.mem_singleton] at hl
        subst hl
        refine plain_blank (s := showInt (nbElemAtt m) ++ cs!", " ++ showNat m.polyhedra.length ++ cs!", 0") ?_
        have hi : ∀ i : Int, '\n' ∉ showInt i := by
          intro i
          cases i <;> simp [showInt, nl_showNat]
        simp only [List.mem_append, not_or]
        exact ⟨⟨⟨hi _, by decide⟩, nl_showNat _⟩, by decide⟩) (lines bodies.flatten ++ r)
    rw [keys_bodies hstr (fun a ha => hattr a (by simp [ha])) hb] at e
    rw [← e]
    simp [lines]
  have h6 : ∀ r, keyLines (lines (writeNodalSets ordS m) ++ r) = (if m.vertexBlocks.isSome then [cs!"NODALSETS"] else []) ++ keyLines r := by
    intro r
    unfold writeNodalSets
    cases hv : m.vertexBlocks with
    | none => rfl
    | some bs =>
      refine keyLines_section (by decide) ?_ r
      intro l hl
      obtain ⟨x, hx, hl⟩ := List.mem_flatMap.1 hl
      obtain ⟨b, hb, hn⟩ := keys_regions bs x ((hordS _).subset hx)
      exact plain_chunks (hblocks bs hv b hb _ hn) _ l hl
  have h7 : ∀ r, keyLines (lines sets ++ r) = (if m.polyhedronBlocks.isSome then [cs!"ELEMENTALSETS"] else []) ++ keyLines r := by
    intro r
    unfold writeElementSets at hsets
    cases hv : m.polyhedronBlocks with
    | none => rw [hv] at hsets; cases hsets; rfl
    | some bs =>
      rw [hv] at hsets
      cases bs with
      | nil =>
        cases hsets
        rw [(hordS []).eq_nil]
        exact keyLines_section (by decide) (by simp) r
      | cons b bs => cases hsets
  have h8 : ∀ r, keyLines (lines [cs!"GRAVITY", cs!" 0 0 -1"] ++ r) = cs!"GRAVITY" :: keyLines r := by
    intro r
    exact keyLines_section (by decide) (by intro l hl; rw [List.mem_singleton] at hl; rw [hl]; exact plain_blank (by decide)) r
  have h9 : keyLines (lines [cs!"END"]) = [cs!"END"] := by decide
  rw [h1, h2, h3, h4, h5, h6, h7, h8, dfe_keyLines hdfe, h9]
  simp [keysWith]

/-- **C109, exactly.**  When no name has an end of line, the sections come once each and in order exactly when no written attribute has the name of a keyword. -/
theorem sections_in_order_iff [Num D] [LawfulNum D] [DecidableEq D] {toStr : D → Str} {le : D → D → Bool} {neg pos : D → Bool}
    {ordS : List (Str × List Nat) → List (Str × List Nat)} {ord : List (D × List Nat) → List (D × List Nat)} {m : Mesh D} {t : Str}
    (hordS : ∀ l, (ordS l).Perm l) (hstr : ∀ v, '\n' ∉ toStr v) (hattr : ∀ a ∈ nodalAttrs m ++ elementAttrs m, '\n' ∉ a.name)
    (hblocks : ∀ bs, m.vertexBlocks = some bs → ∀ b ∈ bs, ∀ n ∈ b, '\n' ∉ n)
    (h : saveFem toStr le neg pos ordS ord m = .ok t) : keyLines t = expectedKeys m ↔ ∀ a ∈ nodalAttrs m ++ elementAttrs m, a.name ∉ KEYWORDS := by
  constructor
  · intro e a ha hk
    rw [all_keys hordS hstr hattr hblocks h] at e
    have hl := congrArg List.length e
    unfold keysWith expectedKeys at hl
    simp only [List.length_append, List.length_cons, List.length_nil] at hl
    have hz : (named (nodalAttrs m)).length = 0 ∧ (named (elementAttrs m)).length = 0 := by omega
    have hin : ∀ attrs : List (Attr D), a ∈ attrs → a.name ∈ named attrs := by
      intro attrs h'
      exact List.mem_filter.2 ⟨List.mem_map_of_mem h', by simpa using hk⟩
    rcases List.mem_append.1 ha with ha | ha
    · have := hin _ ha
      rw [List.length_eq_zero_iff.1 hz.1] at this
      cases this
    · have := hin _ ha
      rw [List.length_eq_zero_iff.1 hz.2] at this
      cases this
  · intro hk
    exact sections_in_order_partial hordS hstr (fun a ha => ⟨hattr a ha, hk a ha⟩) hblocks h

/-- The premises hold for a file with an attribute named `END`, and for `mesh3`. -/
example : ∃ t, saveInt { mesh3 with polyhedronAttrs := [⟨cs!"END", true, [7]⟩], vertexBlocks := none, facets := none } = .ok t ∧ keyLines t =
    keysWith { mesh3 with polyhedronAttrs := [⟨cs!"END", true, [7]⟩], vertexBlocks := none, facets := none } := by
  refine ⟨_, rfl, ?_⟩
  decide +kernel

example : (∀ a ∈ nodalAttrs mesh3 ++ elementAttrs mesh3, '\n' ∉ a.name ∧ a.name ∉ KEYWORDS) ∧ ∃ t, saveInt mesh3 = .ok t :=
  ⟨by decide, _, rfl⟩

end Verif.Props.FemSections
