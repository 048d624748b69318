import Verif.Lemmas.LsoPoints
import Verif.Props.LsoNumbers

/-!
# Tetrahedra and surfaces of `.lso` files (C44, C45)
-/

namespace Verif.Props.LsoRoundTrip

open Verif Verif.Gocad Verif.GocadMesh Verif.Lso Verif.Sides Verif.Props.LsoNumbers Res

variable {D : Type} [Num D]

/-- A block read has the mesh of a block: `σ` gives the new number of each vertex of the tetrahedra.  Different vertices stay different, and each has its
point (printed and read). -/
def SameMesh (s : Solid D) (b : Block D) (r : RBlock D) : Prop :=
  ∃ (pts : List (Pt D)) (σ : Nat → Nat), meshPoints s r.vertices = .ok pts ∧ r.tetras = b.tetras.map (List.map σ) ∧
    (∀ t ∈ b.tetras, ∀ v ∈ t, ∀ t' ∈ b.tetras, ∀ v' ∈ t', σ v = σ v' → v = v') ∧
    ∀ t ∈ b.tetras, ∀ v ∈ t, ∃ p, b.points[v]? = some p ∧ pts[σ v]? = some p.round

/-- A block read gathers the tetrahedra of several blocks: `σ b v` is the new number of vertex `v` of block `b`. -/
def Gathers (s : Solid D) (bs : List (Block D)) (r : RBlock D) : Prop :=
  ∃ (pts : List (Pt D)) (σ : Nat → Nat → Nat), meshPoints s r.vertices = .ok pts ∧ r.tetras = bs.flatMap (fun b => b.tetras.map (List.map (σ b.id))) ∧
    (∀ b ∈ bs, ∀ b' ∈ bs, ∀ t ∈ b.tetras, ∀ v ∈ t, ∀ t' ∈ b'.tetras, ∀ v' ∈ t', σ b.id v = σ b'.id v' → b.id = b'.id ∧ v = v') ∧
    ∀ b ∈ bs, ∀ t ∈ b.tetras, ∀ v ∈ t, ∃ p, b.points[v]? = some p ∧ pts[σ b.id v]? = some p.round

/-- First word of a name. -/
def firstWord (n : Str) : Str := (split n).headD []

theorem wordOr_eq {n d : Str} (h : split n ≠ []) : wordOr n d = firstWord n := by
  unfold wordOr firstWord
  cases hs : split n with
  | nil => exact absurd hs h
  | cons a b => rfl

theorem idxOf_inj {l : List Nat} {a b : Nat} (ha : a ∈ l) (hb : b ∈ l) (h : l.idxOf a = l.idxOf b) : a = b := by
  have h1 := List.getElem_idxOf (List.idxOf_lt_length_of_mem ha)
  have h2 := List.getElem_idxOf (List.idxOf_lt_length_of_mem hb)
  rw [← h1, ← h2]
  congr 1

/-- Points of a mesh made of vertices of the solid. -/
theorem meshPoints_ok {s : Solid D} {vs : List Nat} (h : ∀ v ∈ vs, v < s.points.length) :
    ∃ pts, meshPoints s vs = .ok pts ∧ ∀ i v : Nat, vs[i]? = some v → pts[i]? = s.points[v]? := by
  unfold meshPoints
  induction vs with
  | nil => exact ⟨[], rfl, by simp⟩
  | cons v vs ih =>
    obtain ⟨pts, e, hp⟩ := ih fun w hw => h w (List.mem_cons_of_mem _ hw)
    have hv := h v (by simp)
    refine ⟨s.points[v] :: pts, by rw [mapM'_cons, index_of_lt hv, ok_bind, e]; rfl, ?_⟩
    intro i w hw
    cases i with
    | zero => simp at hw; subst hw; simp [hv]
    | succ i => simp at hw; simpa using hp i w hw

/-- C45, general statement.  A loaded block has the first word of the name of the saved block, and the tetrahedra of all the blocks whose name begins
with this word. -/
theorem blocks_by_word [LawfulNum D] {m : Model D} (h : Loadable m) (hc : Coherent m) {sides : AllSides} {f : File} (hf : saveLso m sides = .ok f) :
    ∃ L : Lso.Loaded D, loadLso f = .ok L ∧ L.name = m.name ∧
      List.Forall₂ (fun b r => r.name = firstWord b.name ∧ Gathers L.solid (m.blocks.filter fun b' => firstWord b'.name = firstWord b.name) r)
        m.blocks L.blocks := by
  obtain ⟨ps, qs, hps, hqs, hm, hp, hw, e⟩ := load_save h hf
  refine ⟨_, e, rfl, ?_⟩
  simp only
  rw [List.forall₂_map_right_iff, List.forall₂_same]
  intro b hb
  have hwb := wordOr_eq (d := cs!"none") (h.names b hb)
  refine ⟨by simp [loadedBlock, hwb], ?_⟩
  have hts := tetrasNamed_solid m ps qs (wordOr b.name cs!"none")
  have hfil : (m.blocks.filter fun b' => wordOr b'.name cs!"none" = wordOr b.name cs!"none") = m.blocks.filter fun b' => firstWord b'.name = firstWord b.name := by
    refine List.filter_congr fun b' hb' => ?_
    rw [wordOr_eq (h.names b' hb'), hwb]
  rw [hfil] at hts
  generalize hbs : (m.blocks.filter fun b' => decide (firstWord b'.name = firstWord b.name)) = bs at hts
  have hsub : ∀ b' ∈ bs, b' ∈ m.blocks := fun b' hb' => by rw [← hbs] at hb'; exact (List.mem_filter.1 hb').1
  obtain ⟨s1, s2, s3, s4, s5⟩ := localCells_spec List.nodup_nil (tetrasNamed (solidOf m ps qs) (wordOr b.name cs!"none"))
  have hmem : ∀ b' ∈ bs, ∀ t ∈ b'.tetras, ∀ v ∈ t, rank m b'.id v ∈ (localCells [] (tetrasNamed (solidOf m ps qs) (wordOr b.name cs!"none"))).1 := by
    intro b' hb' t ht v hv
    refine s3 (t.map (rank m b'.id)) ?_ _ (List.mem_map_of_mem hv)
    rw [hts]
    exact List.mem_flatMap.2 ⟨b', hb', List.mem_map.2 ⟨t, ht, rfl⟩⟩
  have hlt : ∀ v ∈ (localCells [] (tetrasNamed (solidOf m ps qs) (wordOr b.name cs!"none"))).1, v < (solidOf m ps qs).points.length := by
    intro v hv
    rcases s5 v hv with h0 | ⟨t, ht, hvt⟩
    · simp at h0
    · rw [hts] at ht
      obtain ⟨b', hb', ht⟩ := List.mem_flatMap.1 ht
      obtain ⟨t0, ht0, rfl⟩ := List.mem_map.1 ht
      obtain ⟨v0, hv0, rfl⟩ := List.mem_map.1 hvt
      obtain ⟨p, _, hp2⟩ := corner_point hc hps hqs hm hp (hsub b' hb') ht0 hv0
      exact (List.getElem?_eq_some_iff.1 hp2).1
  obtain ⟨pts, hpts, hpt⟩ := meshPoints_ok hlt
  refine ⟨pts, fun i v => (localCells [] (tetrasNamed (solidOf m ps qs) (wordOr b.name cs!"none"))).1.idxOf (rank m i v), hpts, ?_, ?_, ?_⟩
  · change (localCells [] (tetrasNamed (solidOf m ps qs) (wordOr b.name cs!"none"))).2 = _
    rw [s4]
    generalize (localCells [] (tetrasNamed (solidOf m ps qs) (wordOr b.name cs!"none"))).1 = used
    rw [hts, List.map_flatMap]
    congr 1
    funext b'
    rw [List.map_map]
    refine List.map_congr_left fun t _ => ?_
    simp only [Function.comp, List.map_map]
    rfl
  · intro b1 hb1 b2 hb2 t ht v hv t' ht' v' hv' he
    have := idxOf_inj (hmem b1 hb1 t ht v hv) (hmem b2 hb2 t' ht' v' hv') he
    exact rank_inj (hp b1 (hsub b1 hb1) t ht v hv) (hp b2 (hsub b2 hb2) t' ht' v' hv') this
  · intro b' hb' t ht v hv
    obtain ⟨p, hp1, hp2⟩ := corner_point hc hps hqs hm hp (hsub b' hb') ht hv
    refine ⟨p, hp1, ?_⟩
    have hmv := hmem b' hb' t ht v hv
    have := hpt _ (rank m b'.id v) (by rw [List.getElem?_eq_getElem (List.idxOf_lt_length_of_mem hmv), List.getElem_idxOf])
    rw [this, hp2]

/-- C44.  When the names of the blocks are different words, each block is loaded with its name, its tetrahedra in order and their points. -/
theorem tetrahedra_kept [LawfulNum D] {m : Model D} (h : Loadable m) (hc : Coherent m) (hn : ∀ b ∈ m.blocks, IsTok b.name)
    (hd : (m.blocks.map Block.name).Nodup) {sides : AllSides} {f : File} (hf : saveLso m sides = .ok f) :
    ∃ L : Lso.Loaded D, loadLso f = .ok L ∧ L.name = m.name ∧ List.Forall₂ (fun b r => r.name = b.name ∧ SameMesh L.solid b r) m.blocks L.blocks := by
  obtain ⟨L, e1, e2, hF⟩ := blocks_by_word h hc hf
  refine ⟨L, e1, e2, ?_⟩
  have hw : ∀ b ∈ m.blocks, firstWord b.name = b.name := fun b hb => by unfold firstWord; rw [split_tok (hn b hb)]; rfl
  have hfil : ∀ b ∈ m.blocks, (m.blocks.filter fun b' => firstWord b'.name = firstWord b.name) = [b] := by
    intro b hb
    have e3 : (m.blocks.filter fun b' => firstWord b'.name = firstWord b.name) = m.blocks.filter fun b' => b'.name = b.name :=
      List.filter_congr fun b' hb' => by rw [hw b' hb', hw b hb]
    rw [e3]
    clear e3 hF e1 hw
    generalize m.blocks = bs at hb hd
    induction bs with
    | nil => simp at hb
    | cons a bs ih =>
      rw [List.map_cons, List.nodup_cons] at hd
      rcases List.mem_cons.1 hb with rfl | hb
      · rw [List.filter_cons_of_pos (by simp)]
        congr 1
        rw [List.filter_eq_nil_iff]
        intro x hx
        have : x.name ≠ b.name := fun e => hd.1 (e ▸ List.mem_map_of_mem hx)
        simpa using this
      · have : a.name ≠ b.name := fun e => hd.1 (e ▸ List.mem_map_of_mem hb)
        rw [List.filter_cons_of_neg (by simpa using this)]
        exact ih hb hd.2
  have hall : ∀ b ∈ m.blocks, ∀ r, (r.name = firstWord b.name ∧ Gathers L.solid (m.blocks.filter fun b' => firstWord b'.name = firstWord b.name) r) →
      r.name = b.name ∧ SameMesh L.solid b r := by
    rintro b hb r ⟨h1, h2⟩
    rw [hfil b hb] at h2
    obtain ⟨pts, σ, g1, g2, g3, g4⟩ := h2
    refine ⟨h1.trans (hw b hb), pts, σ b.id, g1, by simpa using g2, ?_, ?_⟩
    · intro t ht v hv t' ht' v' hv' he
      exact (g3 b (by simp) b (by simp) t ht v hv t' ht' v' hv' he).2
    · intro t ht v hv
      exact g4 b (by simp) t ht v hv
  clear hfil hw hd
  generalize L.blocks = rs at hF
  generalize L.solid = S at hF hall
  generalize hbs : m.blocks = bs at hall
  rw [hbs] at hF hn
  clear hbs
  have key : ∀ (Q : Block D → RBlock D → Prop) (bs' : List (Block D)) (rs : List (RBlock D)), List.Forall₂ Q bs' rs → (∀ b ∈ bs', ∀ r, Q b r → r.name = b.name ∧ SameMesh S b r) →
      List.Forall₂ (fun b r => r.name = b.name ∧ SameMesh S b r) bs' rs := by
    intro Q bs' rs hQ
    induction hQ with
    | nil => intro _; exact List.Forall₂.nil
    | cons hq _ ih => intro hall; exact List.Forall₂.cons (hall _ (by simp) _ hq) (ih fun b hb => hall b (List.mem_cons_of_mem _ hb))
  exact key _ _ _ hF hall

/-! ## Surfaces -/

/-- A surface read has the triangles of surface `i` of the model, with the points of the blocks at its vertices.  Vertices at the same unique vertex
become one vertex. -/
def SameSurface (m : Model D) (s : Solid D) (i : Nat) (r : RSurface) : Prop :=
  ∃ (sf : Surface) (pts : List (Pt D)) (σ : Nat → Nat), surfaceOf m i = some sf ∧ meshPoints s r.vertices = .ok pts ∧
    r.triangles = sf.triangles.map (List.map σ) ∧
    (∀ t ∈ sf.triangles, ∀ v ∈ t, ∀ t' ∈ sf.triangles, ∀ v' ∈ t', σ v = σ v' ↔ uniqueOf m ⟨false, sf.id, v⟩ = uniqueOf m ⟨false, sf.id, v'⟩) ∧
    ∀ t ∈ sf.triangles, ∀ v ∈ t, ∀ l ∈ m.uniques, (⟨false, sf.id, v⟩ : Cmv) ∈ l → ∀ c ∈ l, c.isBlock = true → ∀ p, PointOf m c p →
      pts[σ v]? = some p.round

/-- The surfaces of groups, with the name and the rank of their group. -/
def listed : Nat → List (Str × List Nat) → List (Str × Nat × Nat)
  | _, [] => []
  | h, g :: gs => g.2.map (fun i => (g.1, h, i)) ++ listed (h + 1) gs

theorem forall₂_append' {α β : Type} {R : α → β → Prop} {a c : List α} {b d : List β} (h : List.Forall₂ R a b) (h' : List.Forall₂ R c d) :
    List.Forall₂ R (a ++ c) (b ++ d) := by
  induction h with
  | nil => exact h'
  | cons hab _ ih => exact List.Forall₂.cons hab ih

/-- The point of the solid at a unique vertex. -/
theorem unique_point {m : Model D} (hc : Coherent m) {ps qs : List (Pt D)} (hps : List.Forall₂ (PointOf m) (mains m.uniques) ps)
    (hm : ∀ c ∈ m.uniques, ∃ x, mainOf c = [x]) {u : Nat} {l : List Cmv} (hu : m.uniques[u]? = some l) {c : Cmv} (hcl : c ∈ l) (hb : c.isBlock = true)
    {p : Pt D} (hp : PointOf m c p) : (solidOf m ps qs).points[u]? = some p.round := by
  obtain ⟨x, hx⟩ := hm l (List.mem_of_getElem? hu)
  obtain ⟨q, hq, hqp⟩ := forall₂_getElem? hps (mains_getElem? hm hu hx)
  have hxb : x ∈ blockVertices l := mem_blockVertices_iff.2 (Or.inl (by rw [hx]; simp))
  obtain ⟨h1, h2⟩ := List.mem_filter.1 hxb
  have e : p = q := hc.coincide l (List.mem_of_getElem? hu) c hcl x h1 hb h2 p q hp hqp
  change (ps.map Pt.round ++ qs)[u]? = _
  rw [List.getElem?_append_left (by simp; exact (List.getElem?_eq_some_iff.1 hq).1)]
  simp [hq, e]

theorem sameSurface_rsurface {m : Model D} (h : Loadable m) (hc : Coherent m) {ps qs : List (Pt D)}
    (hps : List.Forall₂ (PointOf m) (mains m.uniques) ps)
    (hm : ∀ c ∈ m.uniques, ∃ x, mainOf c = [x]) {i : Nat} (hw : Writable m i) (n : Str) (k : Nat) :
    SameSurface m (solidOf m ps qs) i (rsurface n k (trianglesOf m i)) := by
  obtain ⟨sf, hsf, _⟩ := hw
  have hmem : sf ∈ m.surfaces := List.mem_of_find?_eq_some hsf
  have ht : trianglesOf m i = sf.triangles.map fun t => t.map fun v => uniqueOf m ⟨false, sf.id, v⟩ := by unfold trianglesOf; rw [hsf]
  obtain ⟨s1, s2, s3, s4, s5⟩ := localCells_spec List.nodup_nil (trianglesOf m i)
  have hin : ∀ t ∈ sf.triangles, ∀ v ∈ t, uniqueOf m ⟨false, sf.id, v⟩ ∈ (localCells [] (trianglesOf m i)).1 := by
    intro t htm v hv
    refine s3 (t.map fun v => uniqueOf m ⟨false, sf.id, v⟩) ?_ _ (List.mem_map_of_mem hv)
    rw [ht]; exact List.mem_map.2 ⟨t, htm, rfl⟩
  have hpl : ps.length = m.uniques.length := by rw [← hps.length_eq, mains_length hm]
  have hlt : ∀ v ∈ (localCells [] (trianglesOf m i)).1, v < (solidOf m ps qs).points.length := by
    intro v hv
    rcases s5 v hv with h0 | ⟨t, htm, hvt⟩
    · simp at h0
    · rw [ht] at htm
      obtain ⟨t0, ht0, rfl⟩ := List.mem_map.1 htm
      obtain ⟨v0, hv0, rfl⟩ := List.mem_map.1 hvt
      obtain ⟨l, hl, hcl⟩ := h.placed sf hmem t0 ht0 v0 hv0
      obtain ⟨u, hu⟩ := List.mem_iff_getElem?.1 hl
      rw [h.once.unique hu hcl]
      change u < (ps.map Pt.round ++ qs).length
      have := (List.getElem?_eq_some_iff.1 hu).1
      simp; omega
  obtain ⟨pts, hpts, hpt⟩ := meshPoints_ok hlt
  refine ⟨sf, pts, fun v => (localCells [] (trianglesOf m i)).1.idxOf (uniqueOf m ⟨false, sf.id, v⟩), hsf, hpts, ?_, ?_, ?_⟩
  · change (localCells [] (trianglesOf m i)).2 = _
    rw [s4]
    generalize (localCells [] (trianglesOf m i)).1 = used
    rw [ht, List.map_map]
    refine List.map_congr_left fun t _ => ?_
    simp only [Function.comp, List.map_map]
    rfl
  · intro t htm v hv t' htm' v' hv'
    exact ⟨fun e => idxOf_inj (hin t htm v hv) (hin t' htm' v' hv') e, fun e => by simp only; rw [e]⟩
  · intro t htm v hv l hl hvl c hcl hcb p hp
    obtain ⟨u, hu⟩ := List.mem_iff_getElem?.1 hl
    have hmv := hin t htm v hv
    have := hpt _ (uniqueOf m ⟨false, sf.id, v⟩) (by rw [List.getElem?_eq_getElem (List.idxOf_lt_length_of_mem hmv), List.getElem_idxOf])
    rw [this, h.once.unique hu hvl]
    exact unique_point hc hps hm hu hcl hcb hp

theorem groupSurfaces_listed {m : Model D} (s : Solid D) (hS : ∀ i n k, Writable m i → SameSurface m s i (rsurface n k (trianglesOf m i))) (gs : List (Str × List Nat)) :
    ∀ h, (∀ g ∈ gs, ∀ i ∈ g.2, Writable m i) →
      List.Forall₂ (fun e r => r.name = e.1 ∧ r.horizon = e.2.1 ∧ SameSurface m s e.2.2 r) (listed h gs) (groupSurfaces h (groupsOf m gs)) := by
  induction gs with
  | nil => intro h _; exact List.Forall₂.nil
  | cons g gs ih =>
    intro h hw
    refine forall₂_append' ?_ (ih (h + 1) fun g' hg' => hw g' (List.mem_cons_of_mem _ hg'))
    rw [List.forall₂_map_left_iff]
    change List.Forall₂ _ g.2 ((g.2.map (trianglesOf m)).map (rsurface g.1 h))
    rw [List.map_map, List.forall₂_map_right_iff, List.forall₂_same]
    intro i hi
    exact ⟨rfl, rfl, hS i g.1 h (hw g (by simp) i hi)⟩

/-- The collections that are written become horizons, and the surfaces written are loaded in order in their horizon, with their triangles and points. -/
theorem surfaces_kept [LawfulNum D] {m : Model D} (h : Loadable m) (hc : Coherent m) {sides : AllSides} {f : File} (hf : saveLso m sides = .ok f) :
    ∃ L : Lso.Loaded D, loadLso f = .ok L ∧ L.horizons = (groups m).map Prod.fst ∧
      List.Forall₂ (fun e r => r.name = e.1 ∧ r.horizon = e.2.1 ∧ SameSurface m L.solid e.2.2 r) (listed 0 (groups m)) L.surfaces := by
  obtain ⟨ps, qs, hps, hqs, hm, hp, hw, e⟩ := load_save h hf
  refine ⟨_, e, ?_, ?_⟩
  · simp only [stateOf, foldl_addGroup, List.nil_append]
    unfold groupsOf
    rw [List.map_map]; rfl
  · simp only [stateOf, foldl_addGroup, List.nil_append, List.length_nil]
    exact groupSurfaces_listed _ (fun i n k hi => sameSurface_rsurface h hc hps hm hi n k) _ 0 hw

/-- The surfaces written: each surface of a collection once. -/
theorem kept_surfaces (cs : List (Str × List Nat)) : ∀ seen, ((kept seen cs).flatMap Prod.snd).Nodup ∧
    ∀ i, i ∈ (kept seen cs).flatMap Prod.snd ↔ i ∉ seen ∧ ∃ c ∈ cs, i ∈ c.2 := by
  have hfresh : ∀ is seen, (fresh seen is).Nodup ∧ ∀ i, i ∈ fresh seen is ↔ i ∉ seen ∧ i ∈ is := by
    intro is
    induction is with
    | nil => intro seen; simp [fresh]
    | cons a is ih =>
      intro seen
      by_cases ha : a ∈ seen
      · rw [fresh, if_pos ha]
        refine ⟨(ih seen).1, fun i => ?_⟩
        rw [(ih seen).2 i]
        constructor
        · rintro ⟨h1, h2⟩; exact ⟨h1, List.mem_cons_of_mem _ h2⟩
        · rintro ⟨h1, h2⟩
          rcases List.mem_cons.1 h2 with rfl | h2
          · exact absurd ha h1
          · exact ⟨h1, h2⟩
      · rw [fresh, if_neg ha]
        obtain ⟨g1, g2⟩ := ih (seen ++ [a])
        refine ⟨List.nodup_cons.2 ⟨fun h => ?_, g1⟩, fun i => ?_⟩
        · have := ((g2 a).1 h).1; simp at this
        · rw [List.mem_cons, g2]
          constructor
          · rintro (rfl | ⟨h1, h2⟩)
            · exact ⟨ha, by simp⟩
            · exact ⟨fun h => h1 (List.mem_append_left _ h), List.mem_cons_of_mem _ h2⟩
          · rintro ⟨h1, h2⟩
            by_cases e : i = a
            · exact Or.inl e
            · right
              refine ⟨by simp [h1, e], ?_⟩
              rcases List.mem_cons.1 h2 with rfl | h2
              · exact absurd rfl e
              · exact h2
  induction cs with
  | nil => intro seen; simp [kept]
  | cons c cs ih =>
    intro seen
    obtain ⟨f1, f2⟩ := hfresh c.2 seen
    rw [kept]
    split
    · next he =>
      obtain ⟨g1, g2⟩ := ih seen
      refine ⟨g1, fun i => ?_⟩
      rw [g2]
      constructor
      · rintro ⟨h1, c', h2, h3⟩; exact ⟨h1, c', List.mem_cons_of_mem _ h2, h3⟩
      · rintro ⟨h1, c', h2, h3⟩
        rcases List.mem_cons.1 h2 with rfl | h2
        · have := (f2 i).2 ⟨h1, h3⟩; rw [he] at this; simp at this
        · exact ⟨h1, c', h2, h3⟩
    · obtain ⟨g1, g2⟩ := ih (seen ++ fresh seen c.2)
      rw [List.flatMap_cons]
      refine ⟨?_, fun i => ?_⟩
      · rw [List.nodup_append']
        refine ⟨f1, g1, ?_⟩
        intro i h1 h2
        exact ((g2 i).1 h2).1 (List.mem_append_right _ h1)
      · simp only [List.mem_append]
        rw [g2, f2]
        constructor
        · rintro (⟨h1, h2⟩ | ⟨h1, c', h2, h3⟩)
          · exact ⟨h1, c, by simp, h2⟩
          · exact ⟨fun h => h1 (List.mem_append_left _ h), c', List.mem_cons_of_mem _ h2, h3⟩
        · rintro ⟨h1, c', h2, h3⟩
          by_cases hi : i ∈ fresh seen c.2
          · exact Or.inl ((f2 i).1 hi)
          · right
            refine ⟨by simp [h1, hi], c', ?_, h3⟩
            rcases List.mem_cons.1 h2 with rfl | h2
            · exact absurd ((f2 i).2 ⟨h1, h3⟩) hi
            · exact h2

/-- Collections that have surfaces and share none are all written as they are. -/
theorem groups_disjoint {m : Model D} (hn : ((collections m).flatMap Prod.snd).Nodup) (he : ∀ c ∈ collections m, c.2 ≠ []) : groups m = collections m := by
  have hfresh : ∀ is seen : List Nat, is.Nodup → (∀ i ∈ is, i ∉ seen) → fresh seen is = is := by
    intro is
    induction is with
    | nil => intro _ _ _; rfl
    | cons a is ih =>
      intro seen hn hs
      rw [List.nodup_cons] at hn
      rw [fresh, if_neg (hs a (by simp)), ih _ hn.2]
      intro i hi h
      rcases List.mem_append.1 h with h | h
      · exact hs i (List.mem_cons_of_mem _ hi) h
      · simp at h; exact hn.1 (h ▸ hi)
  have key : ∀ (cs : List (Str × List Nat)) (seen : List Nat), (cs.flatMap Prod.snd).Nodup → (∀ c ∈ cs, c.2 ≠ []) → (∀ i ∈ cs.flatMap Prod.snd, i ∉ seen) → kept seen cs = cs := by
    intro cs
    induction cs with
    | nil => intro _ _ _ _; rfl
    | cons c cs ih =>
      intro seen hn he hs
      rw [List.flatMap_cons, List.nodup_append'] at hn
      have hf : fresh seen c.2 = c.2 := hfresh _ _ hn.1 fun i hi => hs i (List.mem_flatMap.2 ⟨c, by simp, hi⟩)
      rw [kept, hf, if_neg (he c (by simp)), ih _ hn.2.1 fun c hc => he c (List.mem_cons_of_mem _ hc)]
      intro i hi h
      rcases List.mem_append.1 h with h | h
      · exact hs i (by rw [List.flatMap_cons]; exact List.mem_append_right _ hi) h
      · exact hn.2.2 h hi
  exact key _ [] hn he (by simp)

/-- All the collections of a model are loaded as horizons, the faults and the model boundaries too. -/
theorem collections_become_horizons [LawfulNum D] {m : Model D} (h : Loadable m) (hc : Coherent m) (hn : ((collections m).flatMap Prod.snd).Nodup)
    (he : ∀ c ∈ collections m, c.2 ≠ []) {sides : AllSides} {f : File} (hf : saveLso m sides = .ok f) :
    ∃ L : Lso.Loaded D, loadLso f = .ok L ∧ L.horizons = m.horizons.map Prod.fst ++ m.faults.map Prod.fst ++ m.boundaries.map Prod.fst := by
  obtain ⟨L, e1, e2, _⟩ := surfaces_kept h hc hf
  refine ⟨L, e1, ?_⟩
  rw [e2, groups_disjoint hn he]
  simp [collections]

/-! ## Witnesses -/

theorem twoBlocks_loadable : Loadable twoBlocks where
  once := by unfold Once; decide
  name := by intro n h; cases h
  small := by decide +kernel
  tetra := ⟨_, List.mem_cons_self, by decide⟩
  four := by decide
  three := by decide
  placed := by decide
  collections := by decide
  names := by decide

theorem twoBlocks_coherent : Coherent twoBlocks where
  ids := by decide
  points := by decide
  coincide := by
    intro l hl c hc c' hc' hb hb' p p' hp hp'
    obtain ⟨b, h1, h2⟩ := hp
    obtain ⟨b', h1', h2'⟩ := hp'
    have key : ∀ l ∈ twoBlocks.uniques, ∀ c ∈ l, ∀ c' ∈ l, c.isBlock = true → c'.isBlock = true →
        (twoBlocks.blocks.find? (fun b => b.id = c.id)).bind (fun b => b.points[c.vertex]?) =
        (twoBlocks.blocks.find? (fun b => b.id = c'.id)).bind (fun b => b.points[c'.vertex]?) := by decide
    have := key l hl c hc c' hc' hb hb'
    rw [h1, h1'] at this
    simp only [Option.bind_some] at this
    rw [h2, h2'] at this
    exact Option.some.inj this

example : (match saveLso twoBlocks twoSides with | .ok _ => true | _ => false) = true ∧ (∀ b ∈ twoBlocks.blocks, IsTok b.name) ∧
    (twoBlocks.blocks.map Block.name).Nodup ∧ ((collections twoBlocks).flatMap Prod.snd).Nodup ∧ ∀ c ∈ collections twoBlocks, c.2 ≠ [] := by
  refine ⟨by decide +kernel, by decide, by decide, by decide, by decide⟩

end Verif.Props.LsoRoundTrip
