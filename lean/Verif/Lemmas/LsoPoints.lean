import Verif.Lemmas.LsoModel

/-!
# Points and unique vertices of a loaded solid
-/

namespace Verif.Lso

open Verif Verif.Gocad Verif.GocadMesh Verif.Sides Res

variable {D : Type} [Num D]

theorem forall₂_getElem? {α β : Type} {R : α → β → Prop} {l : List α} {r : List β} (h : List.Forall₂ R l r) {i : Nat} {a : α} (ha : l[i]? = some a) :
    ∃ b, r[i]? = some b ∧ R a b := by
  induction h generalizing i with
  | nil => simp at ha
  | cons hab _ ih =>
    cases i with
    | zero => simp at ha; subst ha; exact ⟨_, rfl, hab⟩
    | succ i => simp at ha; simpa using ih ha

/-- The point of each vertex of the solid is that of a block vertex at the same unique vertex. -/
theorem solid_points {m : Model D} {ps qs : List (Pt D)} (hps : List.Forall₂ (PointOf m) (mains m.uniques) ps)
    (hqs : List.Forall₂ (fun e q => (ps.map Pt.round)[e.1]? = some q) (sharedFrom 0 m.uniques) qs) (hm : ∀ c ∈ m.uniques, ∃ x, mainOf c = [x])
    {i : Nat} {c : Cmv} (hc : (order m)[i]? = some c) :
    ∃ (u : Nat) (l : List Cmv) (x : Cmv) (p : Pt D), m.uniques[u]? = some l ∧ c ∈ l ∧ c.isBlock = true ∧ x ∈ l ∧ x.isBlock = true ∧ PointOf m x p ∧
      (solidOf m ps qs).points[i]? = some p.round ∧ (solidOf m ps qs).ids[i]? = some u := by
  have hl := mains_length hm
  have hpl := hps.length_eq
  unfold order at hc
  by_cases hi : i < (mains m.uniques).length
  · rw [List.getElem?_append_left hi] at hc
    obtain ⟨p, hp, hpo⟩ := forall₂_getElem? hps hc
    have hu : m.uniques[i]? = some (m.uniques[i]'(by omega)) := List.getElem?_eq_getElem (by omega)
    obtain ⟨x, hx⟩ := hm _ (List.mem_of_getElem? hu)
    rw [mains_getElem? hm hu hx] at hc
    cases hc
    have hb : c ∈ blockVertices (m.uniques[i]'(by omega)) := mem_blockVertices_iff.2 (Or.inl (by rw [hx]; simp))
    obtain ⟨h1, h2⟩ := List.mem_filter.1 hb
    refine ⟨i, _, c, p, hu, h1, h2, h1, h2, hpo, ?_, ?_⟩
    · change (ps.map Pt.round ++ qs)[i]? = _
      rw [List.getElem?_append_left (by simp; omega)]
      simp [hp]
    · change (List.range m.uniques.length ++ (sharedFrom 0 m.uniques).map Prod.fst)[i]? = _
      rw [List.getElem?_append_left (by simp; omega)]
      rw [List.getElem?_range (by omega)]
  · rw [List.getElem?_append_right (by omega)] at hc
    obtain ⟨⟨u, y⟩, he, hy⟩ := List.getElem?_map .. ▸ hc |> Option.map_eq_some_iff.1
    simp only at hy
    subst hy
    obtain ⟨q, hq, hqp⟩ := forall₂_getElem? hqs he
    obtain ⟨k, l, hk, e, ho⟩ := mem_shared.1 (List.mem_of_getElem? he)
    have : u = k := by omega
    subst this
    obtain ⟨x, hx⟩ := hm _ (List.mem_of_getElem? hk)
    have hmain := mains_getElem? hm hk hx
    obtain ⟨p, hp, hpo⟩ := forall₂_getElem? hps hmain
    have hb : x ∈ blockVertices l := mem_blockVertices_iff.2 (Or.inl (by rw [hx]; simp))
    have hb2 : y ∈ blockVertices l := mem_blockVertices_iff.2 (Or.inr ho)
    obtain ⟨h1, h2⟩ := List.mem_filter.1 hb
    obtain ⟨h3, h4⟩ := List.mem_filter.1 hb2
    refine ⟨u, l, x, p, hk, h3, h4, h1, h2, hpo, ?_, ?_⟩
    · change (ps.map Pt.round ++ qs)[i]? = _
      rw [List.getElem?_append_right (by simp; omega)]
      simp only [List.length_map]
      rw [← hpl, hq]
      simp only at hqp
      rw [List.getElem?_map, hp] at hqp
      simpa using hqp.symm
    · change (List.range m.uniques.length ++ (sharedFrom 0 m.uniques).map Prod.fst)[i]? = _
      rw [List.getElem?_append_right (by simp; omega)]
      simp only [List.length_range, ← hl, List.getElem?_map, he]
      rfl

theorem rank_getElem? {m : Model D} {b v : Nat} (h : (⟨true, b, v⟩ : Cmv) ∈ order m) : (order m)[rank m b v]? = some ⟨true, b, v⟩ := by
  unfold rank
  rw [List.getElem?_eq_getElem (List.idxOf_lt_length_of_mem h), List.getElem_idxOf]

theorem rank_inj {m : Model D} {b v b' v' : Nat} (h : (⟨true, b, v⟩ : Cmv) ∈ order m) (h' : (⟨true, b', v'⟩ : Cmv) ∈ order m)
    (e : rank m b v = rank m b' v') : b = b' ∧ v = v' := by
  have h1 := rank_getElem? h
  have h2 := rank_getElem? h'
  rw [e, h2] at h1
  simpa [eq_comm] using h1

/-- The models whose blocks can be told apart, whose tetrahedra have points, and whose vertices at a unique vertex have the same point. -/
structure Coherent (m : Model D) : Prop where
  ids : (m.blocks.map Block.id).Nodup
  points : ∀ b ∈ m.blocks, ∀ t ∈ b.tetras, ∀ v ∈ t, v < b.points.length
  coincide : ∀ l ∈ m.uniques, ∀ c ∈ l, ∀ c' ∈ l, c.isBlock = true → c'.isBlock = true → ∀ p p', PointOf m c p → PointOf m c' p' → p = p'

theorem find_block {bs : List (Block D)} (hn : (bs.map Block.id).Nodup) {b : Block D} (hb : b ∈ bs) : bs.find? (fun x => x.id = b.id) = some b := by
  induction bs with
  | nil => simp at hb
  | cons a bs ih =>
    rw [List.map_cons, List.nodup_cons] at hn
    rcases List.mem_cons.1 hb with rfl | hb
    · simp
    · have : a.id ≠ b.id := fun e => hn.1 (e ▸ List.mem_map_of_mem hb)
      rw [List.find?_cons, decide_eq_false this]
      exact ih hn.2 hb

/-- The point of a corner of a tetrahedron in the loaded solid. -/
theorem corner_point {m : Model D} (hc : Coherent m) {ps qs : List (Pt D)} (hps : List.Forall₂ (PointOf m) (mains m.uniques) ps)
    (hqs : List.Forall₂ (fun e q => (ps.map Pt.round)[e.1]? = some q) (sharedFrom 0 m.uniques) qs) (hm : ∀ c ∈ m.uniques, ∃ x, mainOf c = [x])
    (hp : Placed m) {b : Block D} (hb : b ∈ m.blocks) {t : List Nat} (ht : t ∈ b.tetras) {v : Nat} (hv : v ∈ t) :
    ∃ p, b.points[v]? = some p ∧ (solidOf m ps qs).points[rank m b.id v]? = some p.round := by
  have hlt := hc.points b hb t ht v hv
  have hpo : PointOf m ⟨true, b.id, v⟩ b.points[v] := ⟨b, find_block hc.ids hb, List.getElem?_eq_getElem hlt⟩
  obtain ⟨u, l, x, p, hu, h1, h2, h3, h4, h5, h6, _⟩ := solid_points hps hqs hm (rank_getElem? (hp b hb t ht v hv))
  refine ⟨b.points[v], List.getElem?_eq_getElem hlt, ?_⟩
  rw [h6, hc.coincide l (List.mem_of_getElem? hu) _ h1 _ h3 h2 h4 _ _ hpo h5]

/-- The unique vertex of a corner of a tetrahedron in the loaded solid. -/
theorem corner_id {m : Model D} (ho : Once m) {ps qs : List (Pt D)} (hps : List.Forall₂ (PointOf m) (mains m.uniques) ps)
    (hqs : List.Forall₂ (fun e q => (ps.map Pt.round)[e.1]? = some q) (sharedFrom 0 m.uniques) qs) (hm : ∀ c ∈ m.uniques, ∃ x, mainOf c = [x])
    {b v : Nat} (hv : (⟨true, b, v⟩ : Cmv) ∈ order m) :
    (solidOf m ps qs).ids[rank m b v]? = some (uniqueOf m ⟨true, b, v⟩) := by
  obtain ⟨u, l, x, p, hu, h1, h2, h3, h4, h5, h6, h7⟩ := solid_points hps hqs hm (rank_getElem? hv)
  rw [h7, ho.unique hu h1]

/-- The tetrahedra of the solid that have the word of a block. -/
theorem tetrasNamed_solid (m : Model D) (ps qs : List (Pt D)) (w : Str) :
    tetrasNamed (solidOf m ps qs) w =
      (m.blocks.filter fun b => wordOr b.name cs!"none" = w).flatMap fun b => b.tetras.map fun t => t.map (rank m b.id) := by
  unfold tetrasNamed
  change ((((records m).map Prod.fst).zip ((records m).map fun e => wordOr e.2 cs!"none")).filter fun e => e.2 = w).map Prod.fst = _
  have e : ((records m).map Prod.fst).zip ((records m).map fun e => wordOr e.2 cs!"none") = (records m).map fun e => (e.1, wordOr e.2 cs!"none") := by
    rw [List.zip_map]
    have : (records m).zip (records m) = (records m).map fun e => (e, e) := by
      generalize records m = rs
      induction rs with
      | nil => rfl
      | cons r rs ih => simp [ih]
    rw [this, List.map_map]; rfl
  rw [e, List.filter_map, List.map_map]
  have e2 : (Prod.fst ∘ fun e : List Nat × Str => (e.1, wordOr e.2 cs!"none")) = Prod.fst := rfl
  rw [e2]
  unfold records
  generalize m.blocks = bs
  induction bs with
  | nil => rfl
  | cons b bs ih =>
    rw [List.flatMap_cons, List.filter_append, List.map_append, ih, List.filter_map, List.filter_cons]
    by_cases h : wordOr b.name cs!"none" = w
    · have hf : b.tetras.filter ((((fun e : List Nat × Str => decide (e.2 = w)) ∘ fun e : List Nat × Str => (e.1, wordOr e.2 cs!"none"))) ∘
          fun t => (t.map (rank m b.id), b.name)) = b.tetras := by
        rw [List.filter_eq_self]; intro t _; simp [h]
      rw [hf, if_pos (by simpa using h), List.flatMap_cons, List.map_map]
      rfl
    · have hf : b.tetras.filter ((((fun e : List Nat × Str => decide (e.2 = w)) ∘ fun e : List Nat × Str => (e.1, wordOr e.2 cs!"none"))) ∘
          fun t => (t.map (rank m b.id), b.name)) = [] := by
        rw [List.filter_eq_nil_iff]; intro t _; simp [h]
      rw [hf, if_neg (by simpa using h)]
      rfl

end Verif.Lso
