import Verif.Props.LsoRoundTrip

/-!
# What `.lso` files lose (C45, C46)
-/

namespace Verif.Props.LsoCases

open Verif Verif.Gocad Verif.GocadMesh Verif.Lso Verif.Sides Verif.Props.LsoNumbers Verif.Props.LsoRoundTrip Res

variable {D : Type} [Num D]

/-! ## Names of blocks -/

theorem length_flatMap_ge {α β : Type} (f : α → List β) {l : List α} {a b : α} (hne : ∃ i j : Nat, i < j ∧ l[i]? = some a ∧ l[j]? = some b) :
    (f a).length + (f b).length ≤ (l.flatMap f).length := by
  obtain ⟨i, j, hij, ha, hb⟩ := hne
  have one : ∀ (l : List α) (j : Nat), l[j]? = some b → (f b).length ≤ (l.flatMap f).length := by
    intro l
    induction l with
    | nil => intro j h; simp at h
    | cons x l ih =>
      intro j h
      cases j with
      | zero => simp at h; subst h; simp
      | succ j => have := ih j (by simpa using h); simp only [List.flatMap_cons, List.length_append]; omega
  induction l generalizing i j with
  | nil => simp at ha
  | cons x l ih =>
    cases i with
    | zero =>
      simp at ha; subst ha
      cases j with
      | zero => omega
      | succ j => have := one l j (by simpa using hb); simp only [List.flatMap_cons, List.length_append]; omega
    | succ i =>
      cases j with
      | zero => omega
      | succ j =>
        have := ih i j (by omega) (by simpa using ha) (by simpa using hb)
        simp only [List.flatMap_cons, List.length_append]; omega

/-- C45 is false: when two blocks have names that begin with the same word, both are loaded with the tetrahedra of both. -/
theorem same_word_mixes [LawfulNum D] {m : Model D} (h : Loadable m) (hc : Coherent m) {i j : Nat} {b b' : Block D} (hij : i < j)
    (hb : m.blocks[i]? = some b) (hb' : m.blocks[j]? = some b') (hw : firstWord b.name = firstWord b'.name) {sides : AllSides} {f : File}
    (hf : saveLso m sides = .ok f) : ∃ (L : Lso.Loaded D) (r r' : RBlock D), loadLso f = .ok L ∧ L.blocks[i]? = some r ∧ L.blocks[j]? = some r' ∧
      b.tetras.length + b'.tetras.length ≤ r.tetras.length ∧ r'.tetras.length = r.tetras.length ∧ r.name = r'.name := by
  obtain ⟨L, e1, e2, hF⟩ := blocks_by_word h hc hf
  obtain ⟨r, hr, hr1, pts, σ, g1, g2, _⟩ := forall₂_getElem? hF hb
  obtain ⟨r', hr', hr1', pts', σ', g1', g2', _⟩ := forall₂_getElem? hF hb'
  refine ⟨L, r, r', e1, hr, hr', ?_, ?_, by rw [hr1, hr1', hw]⟩
  · have hlen : r.tetras.length = ((m.blocks.filter fun x => firstWord x.name = firstWord b.name).flatMap Block.tetras).length := by
      rw [g2]; simp [List.length_flatMap]
    rw [hlen]
    have hidx : ∀ (bs : List (Block D)) (i j : Nat), i < j → bs[i]? = some b → bs[j]? = some b' →
        ∃ i' j' : Nat, i' < j' ∧ (bs.filter fun x => firstWord x.name = firstWord b.name)[i']? = some b ∧
          (bs.filter fun x => firstWord x.name = firstWord b.name)[j']? = some b' := by
      intro bs
      induction bs with
      | nil => intro i j _ h; simp at h
      | cons x bs ih =>
        intro i j hij h1 h2
        cases j with
        | zero => omega
        | succ j =>
          have h2' : bs[j]? = some b' := by simpa using h2
          cases i with
          | zero =>
            simp at h1; subst h1
            rw [List.filter_cons_of_pos (by simp)]
            have hmem : b' ∈ bs.filter fun y => firstWord y.name = firstWord x.name :=
              List.mem_filter.2 ⟨List.mem_of_getElem? h2', by simp [hw]⟩
            obtain ⟨k, hk⟩ := List.mem_iff_getElem?.1 hmem
            exact ⟨0, k + 1, by omega, rfl, by simpa using hk⟩
          | succ i =>
            obtain ⟨i', j', q1, q2, q3⟩ := ih i j (by omega) (by simpa using h1) h2'
            rw [List.filter_cons]
            split
            · exact ⟨i' + 1, j' + 1, by omega, by simpa using q2, by simpa using q3⟩
            · exact ⟨i', j', q1, q2, q3⟩
    exact length_flatMap_ge Block.tetras (hidx m.blocks i j hij hb hb')
  · rw [g2, g2', hw]; simp [List.length_flatMap]

/-- C45, the part that holds: the blocks with one-word names that differ from the first words of the other names keep exactly their tetrahedra. -/
theorem own_word_partial [LawfulNum D] {m : Model D} (h : Loadable m) (hc : Coherent m) (hd : (m.blocks.map fun b => firstWord b.name).Nodup)
    {sides : AllSides} {f : File} (hf : saveLso m sides = .ok f) :
    ∃ L : Lso.Loaded D, loadLso f = .ok L ∧ List.Forall₂ (fun b r => r.name = firstWord b.name ∧ SameMesh L.solid b r) m.blocks L.blocks := by
  obtain ⟨L, e1, e2, hF⟩ := blocks_by_word h hc hf
  refine ⟨L, e1, ?_⟩
  have hfil : ∀ b ∈ m.blocks, (m.blocks.filter fun b' => firstWord b'.name = firstWord b.name) = [b] := by
    intro b hb
    clear hF e1
    generalize m.blocks = bs at hb hd
    induction bs with
    | nil => simp at hb
    | cons a bs ih =>
      rw [List.map_cons, List.nodup_cons] at hd
      rcases List.mem_cons.1 hb with rfl | hb
      · rw [List.filter_cons_of_pos (by simp)]
        congr 1
        rw [List.filter_eq_nil_iff]
        intro x hx
        have : firstWord x.name ≠ firstWord b.name := fun e => hd.1 (e ▸ List.mem_map_of_mem (f := fun b => firstWord b.name) hx)
        simpa using this
      · have : firstWord a.name ≠ firstWord b.name := fun e => hd.1 (e ▸ List.mem_map_of_mem (f := fun b => firstWord b.name) hb)
        rw [List.filter_cons_of_neg (by simpa using this)]
        exact ih hb hd.2
  have key : ∀ (Q : Block D → RBlock D → Prop) (bs' : List (Block D)) (rs : List (RBlock D)), List.Forall₂ Q bs' rs →
      (∀ b ∈ bs', ∀ r, Q b r → r.name = firstWord b.name ∧ SameMesh L.solid b r) → List.Forall₂ (fun b r => r.name = firstWord b.name ∧ SameMesh L.solid b r) bs' rs := by
    intro Q bs' rs hQ
    induction hQ with
    | nil => intro _; exact List.Forall₂.nil
    | cons hq _ ih => intro hall; exact List.Forall₂.cons (hall _ (by simp) _ hq) (ih fun b hb => hall b (List.mem_cons_of_mem _ hb))
  refine key _ _ _ hF ?_
  rintro b hb r ⟨h1, h2⟩
  rw [hfil b hb] at h2
  obtain ⟨pts, σ, g1, g2, g3, g4⟩ := h2
  refine ⟨h1, pts, σ b.id, g1, by simpa using g2, ?_, ?_⟩
  · intro t ht v hv t' ht' v' hv' he
    exact (g3 b (by simp) b (by simp) t ht v hv t' ht' v' hv' he).2
  · intro t ht v hv
    exact g4 b (by simp) t ht v hv

/-- Two blocks `upper part` and `upper side`. -/
def twoUpper : Model Int := { twoBlocks with blocks := twoBlocks.blocks.zipWith (fun b n => { b with name := n }) [cs!"upper part", cs!"upper side"] }

/-- Witness: the two blocks have different names and one tetrahedron each; both are loaded with two. -/
theorem names_mixed : ∃ (f : File) (L : Lso.Loaded Int), saveLso twoUpper twoSides = .ok f ∧ loadLso f = .ok L ∧
    (twoUpper.blocks.map Block.name).Nodup ∧ twoUpper.blocks.map (fun b => b.tetras.length) = [1, 1] ∧
    L.blocks.map (fun b => (b.name, b.tetras.length)) = [(cs!"upper", 2), (cs!"upper", 2)] := by
  have h : (match saveLso twoUpper twoSides with
      | .ok f => (match loadLso (D := Int) f with
        | .ok L => decide (L.blocks.map (fun b => (b.name, b.tetras.length)) = [(cs!"upper", 2), (cs!"upper", 2)])
        | _ => false)
      | _ => false) = true := by decide +kernel
  cases hs : saveLso twoUpper twoSides with
  | ok f =>
    rw [hs] at h
    simp only at h
    cases hl : loadLso (D := Int) f with
    | ok L =>
      rw [hl] at h
      exact ⟨f, L, rfl, hl, by decide, by decide, of_decide_eq_true h⟩
    | throw => rw [hl] at h; cases h
    | ub => rw [hl] at h; cases h
    | diverge => rw [hl] at h; cases h
  | throw => rw [hs] at h; cases h
  | ub => rw [hs] at h; cases h
  | diverge => rw [hs] at h; cases h

/-! ## Properties of tetrahedra -/

theorem mapM'_length {α β : Type} {f : α → Res β} {l : List α} {r : List β} (h : Res.mapM' f l = .ok r) : r.length = l.length :=
  (mapM'_inv h).length_eq.symm

/-- C46 is false: a block that has more vertices than tetrahedra cannot be loaded with a property of its tetrahedra, since the values are stored for
`nb_vertices` elements. -/
theorem tetra_property_fails {h : Headers D} {s : Solid D} {st : RState} {l : Str} {name : Str} (hn : Res.index (split l) 1 = .ok name)
    {n : Str} {ns : List Str} (hh : h.tetras.names = n :: ns)
    (hlt : (localCells [] (tetrasNamed s name)).2.length < (localCells [] (tetrasNamed s name)).1.length) :
    ∀ r, readBlock h s st l ≠ .ok r := by
  intro r hr
  unfold readBlock at hr
  rw [hn, ok_bind] at hr
  obtain ⟨vs, h1, h2⟩ := bind_eq_ok.1 hr
  obtain ⟨ts, h3, h4⟩ := bind_eq_ok.1 h2
  unfold blockAttributes at h3
  rw [hh] at h3
  unfold createAttributes at h3
  split at h3
  · next he => cases he
  · next es ds vls he1 he2 he3 he4 he5 =>
    cases he2
    obtain ⟨st', h5, h6⟩ := bind_eq_ok.1 h3
    unfold createAttribute at h5
    obtain ⟨items, h7, h8⟩ := bind_eq_ok.1 h5
    obtain ⟨new, h9, h10⟩ := bind_eq_ok.1 h8
    have hil := mapM'_length h7
    unfold setFrom at h9
    split at h9
    · next hle =>
      simp only [findOrCreate, List.lookup_nil, List.length_replicate] at hle
      omega
    · cases h9
  · cases h3

/-- C46, what is stored instead: with one property of one value per tetrahedron, tetrahedron `k` of the block has the value of the line of the tetrahedron
of the file whose number is that of the vertex `k` of the block in the file, and the tetrahedra after the number of vertices have the default value.
The statement of C46, that tetrahedron `k` has the value of its own line, holds when these numbers are equal. -/
theorem tetra_values_partial {h : Headers D} {s : Solid D} {st : RState} {l : Str} {name n : Str} {d : D} {vals : List D}
    (hn : Res.index (split l) 1 = .ok name) (hh : h.tetras.names = [n]) (he : h.tetras.esizes = [1]) (hd : h.tetras.noData = [d]) (hv : s.tattrs = [vals])
    {r : RBlock D × Bool} (hr : readBlock h s st l = .ok r) :
    ∃ c, r.1.tstore = [(n, c)] ∧ c.vals.length = r.1.tetras.length ∧ r.1.vertices.length ≤ r.1.tetras.length ∧
      (∀ k v : Nat, r.1.vertices[k]? = some v → ∃ x, vals[v]? = some x ∧ c.vals[k]? = some [x]) ∧
      ∀ k : Nat, r.1.vertices.length ≤ k → k < r.1.tetras.length → c.vals[k]? = some [d] := by
  unfold readBlock at hr
  rw [hn, ok_bind] at hr
  obtain ⟨vs, h1, h2⟩ := bind_eq_ok.1 hr
  obtain ⟨ts, h3, h4⟩ := bind_eq_ok.1 h2
  have h5 := Res.ok.inj h4
  clear hr h1 h2 h4
  unfold blockAttributes at h3
  rw [hh, he, hd, hv, createAttributes] at h3
  obtain ⟨st', h6, h7⟩ := bind_eq_ok.1 h3
  have h8 := Res.ok.inj h7
  clear h3 h7
  subst h8
  unfold createAttribute at h6
  obtain ⟨items, h9, h10⟩ := bind_eq_ok.1 h6
  obtain ⟨new, h11, h12⟩ := bind_eq_ok.1 h10
  have h13 := Res.ok.inj h12
  have hil := mapM'_length h9
  have hit := mapM'_inv h9
  unfold setFrom at h11
  split at h11
  · next hle =>
    have h14 := Res.ok.inj h11
    simp only [findOrCreate, List.lookup_nil, List.length_replicate] at hle h13 h14
    subst h5
    simp only
    refine ⟨{ esize := 1, dflt := d, vals := new }, by rw [← h13]; rfl, ?_, by omega, ?_, ?_⟩
    · rw [← h14]; simp; omega
    · intro k v hk
      obtain ⟨it, hi1, hi2⟩ := forall₂_getElem? hit hk
      unfold itemsAt at hi2
      simp only [Nat.mul_one, List.range'_one, mapM'_cons, mapM'_nil] at hi2
      obtain ⟨x, hx, h15⟩ := bind_eq_ok.1 hi2
      have h16 := Res.ok.inj h15
      refine ⟨x, index_eq_ok.1 hx, ?_⟩
      rw [← h14, List.getElem?_append_left (List.getElem?_eq_some_iff.1 hi1).1, hi1, ← h16]
    · intro k hk1 hk2
      rw [← h14, List.getElem?_append_right (by omega), List.getElem?_drop, List.getElem?_replicate, if_pos (by omega)]
      rfl
  · cases h11

/-- A file with one block of one tetrahedron; `props` are the lines of properties and `value` is added to the line of the tetrahedron. -/
def oneTetraFile (props : File) (value : Str) : File :=
  [cs!"GOCAD LightTSolid 1", cs!"HEADER {", cs!"name:a", cs!"}"] ++ writeCrs {} ++ props ++
  [cs!"VRTX 1 0 0 0", cs!"VRTX 2 1 0 0", cs!"VRTX 3 0 1 0", cs!"VRTX 4 0 0 1",
   cs!"TETRA 1 2 3 4" ++ value, cs!"# CTETRA A none none none none", cs!"MODEL", cs!"SURFACE s", cs!"TFACE 1", cs!"KEYVERTICES 1 2 3",
   cs!"TRGL 1 2 3", cs!"MODEL_REGION A +1", cs!"END"]

/-- Witness for C46: without properties the file is loaded, with one property of tetrahedra it is not. -/
theorem tetra_property_ub :
    (match loadLso (D := Int) (oneTetraFile [] []) with
     | .ok L => decide (L.blocks.map (fun b => (b.name, b.tetras, b.vertices.length)) = [(cs!"A", [[0, 1, 2, 3]], 4)])
     | _ => false) = true ∧
    loadLso (D := Int) (oneTetraFile
      [cs!"TETRA_PROPERTIES p", cs!"TETRA_PROP_LEGAL_RANGES **none** **none**", cs!"TETRA_NO_DATA_VALUES 0", cs!"TETRA_PROPERTY_CLASSES p",
       cs!"TETRA_PROPERTY_KINDS p", cs!"TETRA_PROPERTY_SUBCLASSES QUANTITY Float", cs!"TETRA_ESIZES 1", cs!"TETRA_UNITS none"] cs!" 5") = .ub := by
  refine ⟨by decide +kernel, by decide +kernel⟩

/-! ## Other files -/

/-- A triangle that refers to a vertex by the number of a `SHAREDVRTX` line is outside of `vertex_mapping_`. -/
theorem shared_number_ub : loadLso (D := Int)
    ([cs!"GOCAD LightTSolid 1", cs!"HEADER {", cs!"name:a", cs!"}"] ++ writeCrs {} ++
     [cs!"VRTX 1 0 0 0", cs!"VRTX 2 1 0 0", cs!"VRTX 3 0 1 0", cs!"VRTX 4 0 0 1", cs!"VRTX 5 0 0 2", cs!"SHAREDVRTX 6 1",
      cs!"TETRA 1 2 3 4", cs!"# CTETRA A none none none none", cs!"TETRA 6 2 3 5", cs!"# CTETRA B none none none none", cs!"MODEL",
      cs!"SURFACE s", cs!"TFACE 1", cs!"KEYVERTICES 1 2 3", cs!"TRGL 6 2 3", cs!"MODEL_REGION A +1", cs!"MODEL_REGION B -1", cs!"END"]) = .ub := by
  decide +kernel

/-- A solid without tetrahedra cannot be loaded: the line after the vertices is read as a tetrahedron. -/
theorem no_tetra_ub : loadLso (D := Int)
    ([cs!"GOCAD LightTSolid 1", cs!"HEADER {", cs!"name:a", cs!"}"] ++ writeCrs {} ++
     [cs!"VRTX 1 0 0 0", cs!"VRTX 2 1 0 0", cs!"VRTX 3 0 1 0", cs!"MODEL", cs!"SURFACE s", cs!"TFACE 1", cs!"KEYVERTICES 1 2 3", cs!"TRGL 1 2 3",
      cs!"END"]) = .ub := by decide +kernel

/-- A block whose first boundary surface is in no collection cannot be saved. -/
theorem uncollected_throws : saveLso { twoBlocks with horizons := [] } twoSides = .throw := by decide +kernel

/-- A block without boundary surface: the first element of an empty range is read. -/
theorem no_boundary_ub :
    saveLso { twoBlocks with blocks := twoBlocks.blocks.map fun b => { b with boundaries := [] } } twoSides = .ub := by decide +kernel

/-- Every block saved has a boundary surface, which is in a collection, and a side. -/
theorem saved_boundaries {m : Model D} {sides : AllSides} {f : File} (h : saveLso m sides = .ok f) :
    ∀ b ∈ m.blocks, ∃ s, b.boundaries[0]? = some s ∧ (find sides.regions (b.id, s)).isSome = true ∧ ∃ c ∈ collections m, s ∈ c.2 := by
  obtain ⟨⟨vs, vl⟩, h1, h2⟩ := bind_eq_ok.1 h
  obtain ⟨tl, h3, h4⟩ := bind_eq_ok.1 h2
  obtain ⟨st, h5, h6⟩ := bind_eq_ok.1 h4
  obtain ⟨rl, h7, h8⟩ := bind_eq_ok.1 h6
  have h5' : foldM' (writeCollection m) (sstate [] []) (collections m) = .ok st := h5
  obtain ⟨hw, e4⟩ := writeCollections_ok _ h5'
  have hreg := writeRegions_ok h7
  intro b hb
  obtain ⟨i, hi⟩ := List.mem_iff_getElem?.1 hb
  obtain ⟨l, _, s, side, k, q1, q2, q3, _⟩ := forall₂_getElem? hreg hi
  refine ⟨s, q1, by rw [q2]; rfl, ?_⟩
  have hany : (numbered 1 ([] ++ (kept [] (collections m)).flatMap Prod.snd)).any (fun e => e.1 = s) = true := by
    have : st.exported = numbered 1 ([] ++ (kept [] (collections m)).flatMap Prod.snd) := by rw [e4]; rfl
    rw [← this, ← find_isSome, q3]; rfl
  rw [any_numbered] at hany
  have hmem : s ∈ (kept [] (collections m)).flatMap Prod.snd := by simpa using hany
  exact (((kept_surfaces (collections m) []).2 s).1 hmem).2

/-- A model whose surface is a fault. -/
def twoFault : Model Int := { twoBlocks with horizons := [], faults := [(cs!"F", [9])] }

/-- A fault is loaded as a horizon. -/
theorem fault_becomes_horizon : ∃ (f : File) (L : Lso.Loaded Int), saveLso twoFault twoSides = .ok f ∧ loadLso f = .ok L ∧
    twoFault.horizons = [] ∧ L.horizons = [cs!"F"] := by
  have h : (match saveLso twoFault twoSides with
      | .ok f => (match loadLso (D := Int) f with
        | .ok L => decide (L.horizons = [cs!"F"])
        | _ => false)
      | _ => false) = true := by decide +kernel
  cases hs : saveLso twoFault twoSides with
  | ok f =>
    rw [hs] at h
    simp only at h
    cases hl : loadLso (D := Int) f with
    | ok L =>
      rw [hl] at h
      exact ⟨f, L, rfl, hl, rfl, of_decide_eq_true h⟩
    | throw => rw [hl] at h; cases h
    | ub => rw [hl] at h; cases h
    | diverge => rw [hl] at h; cases h
  | throw => rw [hs] at h; cases h
  | ub => rw [hs] at h; cases h
  | diverge => rw [hs] at h; cases h

end Verif.Props.LsoCases
