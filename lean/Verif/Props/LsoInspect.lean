import Verif.Props.LsoRelations
import Verif.Props.LsoCases

/-!
# Inspection of structural models read from `.lso` files

Whatever the file, the relations of the blocks and surfaces loaded, and whether the model has to be inspected, are stated on the model loaded.
-/

namespace Verif.Props.LsoInspect

open Verif Verif.Gocad Verif.GocadMesh Verif.Lso Verif.Sides Res

variable {D : Type} [Num D]

/-- The vertices in the solid of a cell of a mesh made from vertices of the solid. -/
def inSolid (vertices cell : List Nat) : List Nat := cell.map fun i => vertices[i]?.getD 0

/-- A facet of a tetrahedron of the solid lies on a triangle given by unique vertices. -/
def lies (s : Solid D) (t f : List Nat) : Bool := (f.map fun v => s.ids[v]?).isPerm (t.map some)

/-- A facet lies on a triangle of a surface. -/
def touches (s : Solid D) (f : List Nat) (r : RSurface) : Bool := r.triangles.any fun t => lies s (inSolid r.vertices t) f

/-- The last surface that a facet lies on. -/
def owner (s : Solid D) (rs : List RSurface) (f : List Nat) : Option Nat := (rs.zipIdx.reverse.find? fun e => touches s f e.1).map Prod.snd

/-- No tetrahedron of the solid has a facet on the triangle. -/
def Loose (s : Solid D) (t : List Nat) : Prop := ∀ c ∈ s.tetras, ∀ f ∈ triples c, lies s t f = false

/-- Some triangle of a surface is not a facet of the solid. -/
def LooseTriangle (s : Solid D) (rs : List RSurface) : Prop := ∃ r ∈ rs, ∃ t ∈ r.triangles, Loose s (inSolid r.vertices t)

/-- Number of facets of the tetrahedra of a block whose surface is surface `i`. -/
def nbFacets (s : Solid D) (rs : List RSurface) (b : RBlock D) (i : Nat) : Nat :=
  (((b.tetras.map (inSolid b.vertices)).flatMap triples).filter fun f => owner s rs f = some i).length

/-- How often a block has the triangles of a surface. -/
def times (s : Solid D) (rs : List RSurface) (b : RBlock D) (i : Nat) (r : RSurface) : Nat := nbFacets s rs b i / r.triangles.length

/-! ## Facets -/

theorem mem_facetsFrom {s : Solid D} {a b c : Nat} {fs : List (List Nat)} (hfs : facetsFrom s [a, b, c] = .ok fs) {f : List Nat}
    (hs : ∃ x ∈ s.tetras, f ∈ triples x) : facetKey f ∈ fs ↔ lies s [a, b, c] f = true := by
  unfold facetsFrom at hfs
  simp only [index_cons_zero, index_cons_succ, ok_bind] at hfs
  obtain ⟨as, ea, hfs⟩ := bind_eq_ok.1 hfs
  obtain ⟨bs, eb, hfs⟩ := bind_eq_ok.1 hfs
  obtain ⟨cs, ec, hfs⟩ := bind_eq_ok.1 hfs
  cases hfs
  rw [List.mem_filter]
  have hany : (s.tetras.any fun t => (facets t).contains (facetKey f)) = true := by
    obtain ⟨x, hx, hfx⟩ := hs
    rw [List.any_eq_true]
    refine ⟨x, hx, ?_⟩
    rw [List.contains_iff_mem, facets_eq]
    exact List.mem_map_of_mem hfx
  unfold lies
  rw [List.isPerm_iff]
  constructor
  · rintro ⟨h, _⟩
    obtain ⟨x, hx, h⟩ := List.mem_flatMap.1 h
    obtain ⟨y, hy, h⟩ := List.mem_flatMap.1 h
    obtain ⟨z, hz, h⟩ := List.mem_map.1 h
    have := ((facetKey_eq_iff.1 h).symm.map fun v => s.ids[v]?)
    rw [List.map_cons, List.map_cons, List.map_cons, List.map_nil, (mem_copies ea x).1 hx, (mem_copies eb y).1 hy, (mem_copies ec z).1 hz] at this
    exact this
  · intro h
    refine ⟨?_, hany⟩
    obtain ⟨g, hg1, hg2⟩ := perm_map h
    have h3 : g.length = 3 := by simpa using congrArg List.length hg2
    match g, h3, hg2, hg1 with
    | [x, y, z], _, hg2, hg1 =>
      simp only [List.map_cons, List.map_nil, List.cons.injEq, and_true] at hg2
      obtain ⟨e1, e2, e3⟩ := hg2
      refine List.mem_flatMap.2 ⟨x, (mem_copies ea x).2 e1, ?_⟩
      refine List.mem_flatMap.2 ⟨y, (mem_copies eb y).2 e2, ?_⟩
      exact List.mem_map.2 ⟨z, (mem_copies ec z).2 e3, facetKey_eq_iff.2 hg1⟩

theorem facetsFrom_facet {s : Solid D} {t : List Nat} {fs : List (List Nat)} (hfs : facetsFrom s t = .ok fs) {k : List Nat} (hk : k ∈ fs) :
    ∃ c ∈ s.tetras, ∃ f ∈ triples c, k = facetKey f := by
  unfold facetsFrom at hfs
  obtain ⟨a, -, hfs⟩ := bind_eq_ok.1 hfs
  obtain ⟨b, -, hfs⟩ := bind_eq_ok.1 hfs
  obtain ⟨c, -, hfs⟩ := bind_eq_ok.1 hfs
  obtain ⟨as, -, hfs⟩ := bind_eq_ok.1 hfs
  obtain ⟨bs, -, hfs⟩ := bind_eq_ok.1 hfs
  obtain ⟨cs, -, hfs⟩ := bind_eq_ok.1 hfs
  cases hfs
  have := (List.mem_filter.1 hk).2
  obtain ⟨x, hx, h⟩ := List.any_eq_true.1 this
  rw [List.contains_iff_mem, facets_eq] at h
  obtain ⟨f, hf, rfl⟩ := List.mem_map.1 h
  exact ⟨x, hx, f, hf, rfl⟩

/-! ## Owners -/

theorem owner_append (s : Solid D) (rs : List RSurface) (r : RSurface) (f : List Nat) :
    owner s (rs ++ [r]) f = if touches s f r then some rs.length else owner s rs f := by
  unfold owner
  rw [List.zipIdx_append, List.reverse_append]
  simp only [List.zipIdx_cons, List.zipIdx_nil, List.reverse_cons, List.reverse_nil, List.nil_append, List.singleton_append, List.find?_cons]
  cases touches s f r <;> simp

/-! ## The surfaces -/

/-- What holds while the surfaces are read. -/
structure Inv (s : Solid D) (st : RState) : Prop where
  nodup : ∀ r ∈ st.surfaces, r.vertices.Nodup
  known : ∀ r ∈ st.surfaces, ∀ t ∈ r.triangles, ∀ i ∈ t, i < r.vertices.length
  owners : ∀ c ∈ s.tetras, ∀ f ∈ triples c, find st.facetIds (facetKey f) = owner s st.surfaces f
  flag : st.inspect = true ↔ LooseTriangle s st.surfaces

theorem inv_start (s : Solid D) (l : List Str) : Inv s { horizons := l } :=
  ⟨by simp, by simp, fun _ _ _ _ => rfl, by simp [LooseTriangle]⟩

theorem inSolid_prefix {l l' : List Nat} (h : l <+: l') {t : List Nat} (ht : ∀ i ∈ t, i < l.length) : inSolid l' t = inSolid l t := by
  unfold inSolid
  refine List.map_congr_left fun i hi => ?_
  obtain ⟨r, rfl⟩ := h
  rw [List.getElem?_append_left (ht i hi)]

theorem inSolid_idxOf {l t : List Nat} (h : ∀ v ∈ t, v ∈ l) : inSolid l (t.map l.idxOf) = t := by
  unfold inSolid
  rw [List.map_map]
  conv => rhs; rw [← List.map_id t]
  refine List.map_congr_left fun v hv => ?_
  have hl := List.idxOf_lt_length_of_mem (h v hv)
  simp [Function.comp, hl]

theorem find_map_const {ks : List (List Nat)} {n : Nat} {k : List Nat} : find (ks.map fun k => (k, n)) k = if k ∈ ks then some n else none := by
  induction ks with
  | nil => simp [find]
  | cons a ks ih =>
    simp only [List.map_cons, find, ih, List.mem_cons]
    by_cases h : a = k
    · simp [h]
    · have : ¬ k = a := fun e => h e.symm
      simp [h, this]

theorem readCell_three {tokens : List Str} {t : List Nat} (h : readCell 3 tokens = .ok t) : ∃ a b c, t = [a, b, c] := by
  have := (mapM'_inv h).length_eq
  match t, this with
  | [a, b, c], _ => exact ⟨a, b, c, rfl⟩

/-- A surface with a triangle more. -/
def grown (cur : RSurface) (t : List Nat) : RSurface :=
  { cur with vertices := (localCell cur.vertices t).1, triangles := cur.triangles ++ [(localCell cur.vertices t).2] }

/-- A triangle keeps what holds. -/
theorem inv_triangle {s : Solid D} {st st' : RState} {l : Str} (hi : Inv s st) (h : readTriangle s st l = .ok st') : Inv s st' := by
  unfold readTriangle at h
  obtain ⟨t, ht, h⟩ := bind_eq_ok.1 h
  obtain ⟨_, -, h⟩ := bind_eq_ok.1 h
  obtain ⟨fs, hfs, h⟩ := bind_eq_ok.1 h
  obtain ⟨a, b, c, rfl⟩ := readCell_three ht
  cases hr : st.surfaces.reverse with
  | nil => rw [hr] at h; cases h
  | cons cur before =>
    rw [hr] at h
    have hs : st.surfaces = before.reverse ++ [cur] := by
      have := congrArg List.reverse hr
      rwa [List.reverse_reverse, List.reverse_cons] at this
    have hcur : cur ∈ st.surfaces := by rw [hs]; simp
    have hbef : ∀ r ∈ before.reverse, r ∈ st.surfaces := fun r hr => by rw [hs]; exact List.mem_append_left _ hr
    obtain ⟨g1, g2, g3, g4, -⟩ := localCell_spec (hi.nodup cur hcur) [a, b, c]
    have hst : st' = { st with
        surfaces := before.reverse ++ [grown cur [a, b, c]]
        facetIds := fs.reverse.map (fun k => (k, before.length)) ++ st.facetIds
        inspect := st.inspect || fs.isEmpty } := (Res.ok.inj h).symm
    subst hst
    have hnew : inSolid (localCell cur.vertices [a, b, c]).1 (localCell cur.vertices [a, b, c]).2 = [a, b, c] := by
      rw [g4, inSolid_idxOf g3]
    have hold : ∀ t ∈ cur.triangles, inSolid (localCell cur.vertices [a, b, c]).1 t = inSolid cur.vertices t :=
      fun t ht => inSolid_prefix g2 (hi.known cur hcur t ht)
    refine ⟨?_, ?_, ?_, ?_⟩
    · intro r hr
      rcases List.mem_append.1 hr with hr | hr
      · exact hi.nodup r (hbef r hr)
      · rw [List.mem_singleton.1 hr]; exact g1
    · intro r hr t ht i hit
      rcases List.mem_append.1 hr with hr | hr
      · exact hi.known r (hbef r hr) t ht i hit
      · rw [List.mem_singleton.1 hr] at ht ⊢
        rcases List.mem_append.1 ht with ht | ht
        · exact Nat.lt_of_lt_of_le (hi.known cur hcur t ht i hit) g2.length_le
        · rw [List.mem_singleton.1 ht, g4] at hit
          obtain ⟨v, hv, rfl⟩ := List.mem_map.1 hit
          exact List.idxOf_lt_length_of_mem (g3 v hv)
    · intro x hx f hf
      have hmem := mem_facetsFrom hfs ⟨x, hx, hf⟩
      have ho := hi.owners x hx f hf
      rw [hs, owner_append] at ho
      simp only [find_append, find_map_const, owner_append, List.mem_reverse, List.length_reverse] at ho ⊢
      have ht : touches s f (grown cur [a, b, c]) = (touches s f cur || lies s [a, b, c] f) := by
        unfold touches grown
        simp only [List.any_append]
        congr 1
        · rw [Bool.eq_iff_iff, List.any_eq_true, List.any_eq_true]
          constructor
          · rintro ⟨t, ht, h⟩; exact ⟨t, ht, by rwa [hold t ht] at h⟩
          · rintro ⟨t, ht, h⟩; exact ⟨t, ht, by rwa [hold t ht]⟩
        · simp only [List.any_cons, List.any_nil, Bool.or_false, hnew]
      rw [ht]
      by_cases hl : lies s [a, b, c] f = true
      · rw [if_pos (hmem.2 hl), hl]; simp
      · rw [if_neg (fun h => hl (hmem.1 h)), Bool.eq_false_iff.2 hl, ho]; simp
    · have hempty : fs.isEmpty = true ↔ Loose s [a, b, c] := by
        constructor
        · intro he x hx f hf
          rw [Bool.eq_false_iff]
          intro hl
          have := (mem_facetsFrom hfs ⟨x, hx, hf⟩).2 hl
          rw [List.isEmpty_iff.1 he] at this
          simp at this
        · intro hl
          cases fs with
          | nil => rfl
          | cons k fs =>
            obtain ⟨x, hx, f, hf, rfl⟩ := facetsFrom_facet hfs (k := k) (by simp)
            have := (mem_facetsFrom hfs ⟨x, hx, hf⟩).1 (by simp)
            rw [hl x hx f hf] at this
            cases this
      simp only [Bool.or_eq_true, hempty, hi.flag]
      unfold LooseTriangle
      rw [hs]
      constructor
      · rintro (⟨r, hr, t, ht, hl⟩ | hl)
        · rcases List.mem_append.1 hr with hr | hr
          · exact ⟨r, List.mem_append_left _ hr, t, ht, hl⟩
          · rw [List.mem_singleton.1 hr] at ht hl
            exact ⟨_, List.mem_append_right _ (List.mem_singleton.2 rfl), t, List.mem_append_left _ ht, (hold t ht).symm ▸ hl⟩
        · exact ⟨_, List.mem_append_right _ (List.mem_singleton.2 rfl), _, List.mem_append_right _ (List.mem_singleton.2 rfl), hnew.symm ▸ hl⟩
      · rintro ⟨r, hr, t, ht, hl⟩
        rcases List.mem_append.1 hr with hr | hr
        · exact Or.inl ⟨r, List.mem_append_left _ hr, t, ht, hl⟩
        · rw [List.mem_singleton.1 hr] at ht hl
          rcases List.mem_append.1 ht with ht | ht
          · exact Or.inl ⟨cur, by simp, t, ht, (hold t ht) ▸ hl⟩
          · rw [List.mem_singleton.1 ht] at hl
            exact Or.inr (hnew ▸ hl)

theorem inv_surfaceLine {s : Solid D} {st : RState} {l : Str} (hi : Inv s st) {r : RState × Mode} (h : surfaceLine st l = .ok (some r)) : Inv s r.1 := by
  unfold surfaceLine at h
  split at h
  · obtain ⟨_, -, h⟩ := bind_eq_ok.1 h
    cases h
    exact ⟨hi.nodup, hi.known, hi.owners, hi.flag⟩
  · cases h

theorem inv_faceLine {s : Solid D} {st : RState} {l : Str} (hi : Inv s st) {r : RState × Mode} (h : faceLine st l = .ok (some r)) : Inv s r.1 := by
  unfold faceLine at h
  split at h
  · cases h
    refine ⟨?_, ?_, ?_, ?_⟩
    · intro r hr
      rcases List.mem_append.1 hr with hr | hr
      · exact hi.nodup r hr
      · rw [List.mem_singleton.1 hr]; exact List.nodup_nil
    · intro r hr t ht
      rcases List.mem_append.1 hr with hr | hr
      · exact hi.known r hr t ht
      · rw [List.mem_singleton.1 hr] at ht; simp at ht
    · intro c hc f hf
      simp only [owner_append]
      rw [hi.owners c hc f hf]
      simp [touches]
    · simp only [hi.flag]
      unfold LooseTriangle
      constructor
      · rintro ⟨r, hr, h⟩; exact ⟨r, List.mem_append_left _ hr, h⟩
      · rintro ⟨r, hr, t, ht, h⟩
        rcases List.mem_append.1 hr with hr | hr
        · exact ⟨r, hr, t, ht, h⟩
        · rw [List.mem_singleton.1 hr] at ht; simp at ht
  · exact inv_surfaceLine hi h

theorem inv_step {s : Solid D} {st : RState} {mode : Mode} {l : Str} (hi : Inv s st) {r : RState × Mode}
    (h : surfacesStep s (st, mode) l = .ok (some r)) : Inv s r.1 := by
  cases mode with
  | faces => exact inv_faceLine hi h
  | key => cases h; exact hi
  | triangles =>
    simp only [surfacesStep] at h
    split at h
    · obtain ⟨st1, h1, h⟩ := bind_eq_ok.1 h
      cases h
      exact inv_triangle hi h1
    · exact inv_faceLine hi h

theorem inv_loop {s : Solid D} (f : File) : ∀ {st : RState} {mode : Mode} {r : RState × Str × File}, Inv s st →
    readSurfacesLoop s (st, mode) f = .ok r → Inv s r.1 := by
  induction f with
  | nil =>
    intro st mode r hi h
    cases h
    exact hi
  | cons l ls ih =>
    intro st mode r hi h
    unfold readSurfacesLoop at h
    obtain ⟨o, ho, h⟩ := bind_eq_ok.1 h
    cases o with
    | none => cases h; exact hi
    | some p => exact ih (inv_step hi ho) h

theorem inv_surfaces {s : Solid D} {l : Str} {f : File} {r : RState × Str × File} (h : readSurfaces s l f = .ok r) : Inv s r.1 := by
  unfold readSurfaces at h
  obtain ⟨f, -, h⟩ := bind_eq_ok.1 h
  cases f with
  | nil => cases h; exact inv_start s []
  | cons l ls =>
    simp only at h
    obtain ⟨o, ho, h⟩ := bind_eq_ok.1 h
    cases o with
    | none => cases h; exact inv_start s []
    | some p => exact inv_loop ls (inv_surfaceLine (inv_start s []) ho) h

/-! ## The blocks -/

/-- There is one block for each of the successive `MODEL_REGION` lines, and the model has to be inspected when one of them says so. -/
theorem blocks_read (h : Headers D) (s : Solid D) (st : RState) (f : File) : ∀ (l : Str) (bs : List (RBlock D)) (i : Bool),
    readBlocks h s st (bs, i) l f =
      Res.mapM' (readBlock h s st) ((l :: f).takeWhile fun l => startsWith l cs!"MODEL_REGION") >>= fun rs =>
        .ok (bs ++ rs.map Prod.fst, i || rs.any Prod.snd) := by
  induction f with
  | nil =>
    intro l bs i
    unfold readBlocks
    by_cases hl : startsWith l cs!"MODEL_REGION" = true
    · rw [if_pos hl, List.takeWhile_cons, if_pos hl, List.takeWhile_nil, mapM'_cons, bind_assoc']
      congr 1
      funext r
      simp only [bind_assoc', Res.mapM', ok_bind, pure_eq, List.map_cons, List.map_nil, List.any_cons, List.any_nil, Bool.or_false]
    · rw [if_neg hl, List.takeWhile_cons, if_neg hl]
      simp [Res.mapM', ok_bind]
  | cons l2 ls ih =>
    intro l bs i
    unfold readBlocks
    by_cases hl : startsWith l cs!"MODEL_REGION" = true
    · rw [if_pos hl, List.takeWhile_cons, if_pos hl, mapM'_cons, bind_assoc']
      congr 1
      funext r
      simp only [ih, bind_assoc', ok_bind, pure_eq, List.map_cons, List.any_cons, List.append_assoc, List.singleton_append, Bool.or_assoc]
    · rw [if_neg hl, List.takeWhile_cons, if_neg hl]
      simp [Res.mapM', ok_bind]

/-- What a block read is. -/
theorem block_read {h : Headers D} {s : Solid D} {st : RState} (hi : Inv s st) {l : Str} {b : RBlock D} {j : Bool}
    (hb : readBlock h s st l = .ok (b, j)) :
    (∀ k, (k ∈ b.boundaries ↔ ∃ r, st.surfaces[k]? = some r ∧ times s st.surfaces b k r = 1) ∧
      (k ∈ b.internals ↔ ∃ r, st.surfaces[k]? = some r ∧ times s st.surfaces b k r = 2)) ∧
    (j = true ↔ ∃ k r, st.surfaces[k]? = some r ∧ nbFacets s st.surfaces b k ≠ 0 ∧ times s st.surfaces b k r ≠ 1 ∧ times s st.surfaces b k r ≠ 2) := by
  unfold readBlock at hb
  obtain ⟨name, -, hb⟩ := bind_eq_ok.1 hb
  simp only at hb
  obtain ⟨vs, -, hb⟩ := bind_eq_ok.1 hb
  obtain ⟨ts, -, hb⟩ := bind_eq_ok.1 hb
  obtain ⟨hb, hj⟩ := Prod.mk.inj (Res.ok.inj hb)
  obtain ⟨-, -, g3, g4, -⟩ := localCells_spec List.nodup_nil (tetrasNamed s name)
  have hcells : b.tetras.map (inSolid b.vertices) = tetrasNamed s name := by
    rw [← hb]
    simp only
    rw [g4, List.map_map]
    conv => rhs; rw [← List.map_id (tetrasNamed s name)]
    exact List.map_congr_left fun t ht => inSolid_idxOf (g3 t ht)
  have hsub : ∀ t ∈ tetrasNamed s name, t ∈ s.tetras := by
    intro t ht
    unfold tetrasNamed at ht
    obtain ⟨e, he, rfl⟩ := List.mem_map.1 ht
    exact (List.of_mem_zip (List.mem_filter.1 he).1).1
  have hcount : ∀ k, relationCount st.facetIds (tetrasNamed s name) k = nbFacets s st.surfaces b k := by
    intro k
    unfold relationCount nbFacets
    rw [hcells]
    have e1 : (tetrasNamed s name).flatMap facets = ((tetrasNamed s name).flatMap triples).map facetKey := by
      rw [List.map_flatMap]
      congr 1
      funext t
      exact facets_eq t
    rw [e1, List.filter_map, List.length_map]
    congr 1
    refine List.filter_congr fun f hf => ?_
    obtain ⟨t, ht, hf⟩ := List.mem_flatMap.1 hf
    simp only [Function.comp, hi.owners t (hsub t ht) f hf]
  have hrel : ∀ k o, (k, o) ∈ relationsOf st (tetrasNamed s name) ↔ ∃ r, st.surfaces[k]? = some r ∧
      o = if nbFacets s st.surfaces b k = 0 then none else some (times s st.surfaces b k r) := by
    intro k o
    unfold relationsOf relation
    simp only [hcount]
    rw [List.mem_map]
    constructor
    · rintro ⟨⟨r, i⟩, he, e⟩
      cases e
      exact ⟨r, List.mem_zipIdx_iff_getElem?.1 he, rfl⟩
    · rintro ⟨r, hr, rfl⟩
      exact ⟨(r, k), List.mem_zipIdx_iff_getElem?.2 hr, rfl⟩
  have hzero : ∀ k r, nbFacets s st.surfaces b k = 0 → times s st.surfaces b k r = 0 := by
    intro k r e
    unfold times
    rw [e, Nat.zero_div]
  have hside : ∀ n k, 0 < n → (k ∈ ((relationsOf st (tetrasNamed s name)).filter fun r => r.2 = some n).map Prod.fst ↔
      ∃ r, st.surfaces[k]? = some r ∧ times s st.surfaces b k r = n) := by
    intro n k hn
    rw [List.mem_map]
    constructor
    · rintro ⟨⟨i, o⟩, he, rfl⟩
      obtain ⟨he, ho⟩ := List.mem_filter.1 he
      obtain ⟨r, hr, e⟩ := (hrel i o).1 he
      have ho : o = some n := by simpa using ho
      refine ⟨r, hr, ?_⟩
      rw [ho] at e
      split at e
      · cases e
      · exact (Option.some.inj e).symm
    · rintro ⟨r, hr, e⟩
      refine ⟨(k, some n), List.mem_filter.2 ⟨(hrel k _).2 ⟨r, hr, ?_⟩, by simp⟩, rfl⟩
      rw [if_neg, e]
      intro h0
      rw [hzero k r h0] at e
      omega
  refine ⟨fun k => ?_, ?_⟩
  · rw [← hb]
    rw [hb]
    have h1 : b.boundaries = ((relationsOf st (tetrasNamed s name)).filter fun r => r.2 = some 1).map Prod.fst := by rw [← hb]
    have h2 : b.internals = ((relationsOf st (tetrasNamed s name)).filter fun r => r.2 = some 2).map Prod.fst := by rw [← hb]
    rw [h1, h2]
    exact ⟨hside 1 k (by omega), hside 2 k (by omega)⟩
  · rw [← hj, List.any_eq_true]
    constructor
    · rintro ⟨⟨k, o⟩, he, ho⟩
      obtain ⟨r, hr, e⟩ := (hrel k o).1 he
      simp only [decide_eq_true_eq] at ho
      obtain ⟨h0, h1, h2⟩ := ho
      refine ⟨k, r, hr, ?_⟩
      split at e
      · exact absurd e h0
      · rename_i hz
        subst e
        exact ⟨hz, fun e => h1 (by rw [e]), fun e => h2 (by rw [e])⟩
    · rintro ⟨k, r, hr, h0, h1, h2⟩
      refine ⟨(k, some (times s st.surfaces b k r)), (hrel k _).2 ⟨r, hr, by rw [if_neg h0]⟩, ?_⟩
      simp [h1, h2]

theorem forall₂_mem {α β : Type} {R : α → β → Prop} {l : List α} {r : List β} (h : List.Forall₂ R l r) {b : β} (hb : b ∈ r) : ∃ a, R a b := by
  induction h with
  | nil => simp at hb
  | cons h1 _ ih =>
    rcases List.mem_cons.1 hb with rfl | hb
    · exact ⟨_, h1⟩
    · exact ih hb

/-- Whatever the file, a surface is a boundary of a block when the tetrahedra of the block have its triangles once (counting the facets whose last surface it
is, and rounding down), and an internal surface when they have them twice.  The model has to be inspected exactly when some triangle of a
surface is not a facet of the solid, or when some block has facets of a surface, but neither once nor twice. -/
theorem inspected {f : File} {L : Loaded D} (h : loadLso f = .ok L) :
    (∀ b ∈ L.blocks, ∀ k, (k ∈ b.boundaries ↔ ∃ r, L.surfaces[k]? = some r ∧ times L.solid L.surfaces b k r = 1) ∧
      (k ∈ b.internals ↔ ∃ r, L.surfaces[k]? = some r ∧ times L.solid L.surfaces b k r = 2)) ∧
    (L.inspect = true ↔ LooseTriangle L.solid L.surfaces ∨ ∃ b ∈ L.blocks, ∃ k r, L.surfaces[k]? = some r ∧
      nbFacets L.solid L.surfaces b k ≠ 0 ∧ times L.solid L.surfaces b k r ≠ 1 ∧ times L.solid L.surfaces b k r ≠ 2) := by
  unfold loadLso at h
  obtain ⟨⟨_, f⟩, -, h⟩ := bind_eq_ok.1 h
  obtain ⟨⟨name, f⟩, -, h⟩ := bind_eq_ok.1 h
  obtain ⟨⟨crs, f⟩, -, h⟩ := bind_eq_ok.1 h
  obtain ⟨⟨vh, f⟩, -, h⟩ := bind_eq_ok.1 h
  obtain ⟨⟨th, f⟩, -, h⟩ := bind_eq_ok.1 h
  obtain ⟨⟨s, l, f⟩, -, h⟩ := bind_eq_ok.1 h
  obtain ⟨⟨l, f⟩, -, h⟩ := bind_eq_ok.1 h
  obtain ⟨⟨s, l, f⟩, -, h⟩ := bind_eq_ok.1 h
  obtain ⟨⟨l, f⟩, -, h⟩ := bind_eq_ok.1 h
  obtain ⟨⟨st, l, f⟩, hst, h⟩ := bind_eq_ok.1 h
  obtain ⟨⟨bs, i⟩, hbs, h⟩ := bind_eq_ok.1 h
  cases h
  have hi : Inv s st := inv_surfaces hst
  rw [blocks_read] at hbs
  obtain ⟨rs, hrs, e⟩ := bind_eq_ok.1 hbs
  obtain ⟨e1, e2⟩ := Prod.mk.inj (Res.ok.inj e)
  rw [List.nil_append] at e1
  rw [Bool.false_or] at e2
  subst e1 e2
  have hall : ∀ r ∈ rs, ∃ l, readBlock ⟨vh, th⟩ s st l = .ok r := fun r hr => forall₂_mem (mapM'_inv hrs) hr
  simp only
  refine ⟨?_, ?_⟩
  · intro b hb k
    obtain ⟨⟨b', j⟩, hr, rfl⟩ := List.mem_map.1 hb
    obtain ⟨l, hl⟩ := hall _ hr
    exact (block_read hi hl).1 k
  · rw [Bool.or_eq_true, hi.flag, List.any_eq_true]
    refine or_congr Iff.rfl ?_
    constructor
    · rintro ⟨⟨b, j⟩, hr, hj⟩
      obtain ⟨l, hl⟩ := hall _ hr
      exact ⟨b, List.mem_map.2 ⟨_, hr, rfl⟩, (block_read hi hl).2.1 hj⟩
    · rintro ⟨b, hb, h⟩
      obtain ⟨⟨b', j⟩, hr, rfl⟩ := List.mem_map.1 hb
      obtain ⟨l, hl⟩ := hall _ hr
      exact ⟨_, hr, (block_read hi hl).2.2 h⟩

/-! ## Saved models -/

/-- The model saved has each triangle of its surfaces as a facet of a block, and each block has each surface not at all, once or twice. -/
structure Conformal (m : Model D) : Prop where
  facet : ∀ i ∈ LsoRelations.written m, ∀ t ∈ trianglesOf m i, ∃ b ∈ m.blocks, ∃ c ∈ b.tetras, ∃ f ∈ triples c,
    (f.map fun v => uniqueOf m ⟨true, b.id, v⟩).Perm t
  whole : ∀ i ∈ LsoRelations.written m, ∀ b ∈ m.blocks, LsoRelations.nbFacets m b i = 0 ∨
    LsoRelations.nbFacets m b i / LsoRelations.nbTriangles m i = 1 ∨ LsoRelations.nbFacets m b i / LsoRelations.nbTriangles m i = 2

/-- A conformal model saved and loaded does not have to be inspected. -/
theorem conformal_not_inspected [LawfulNum D] {m : Model D} (h : Loadable m) (ha : LsoRelations.Apart m) (hn : ∀ b ∈ m.blocks, IsTok b.name)
    (hd : (m.blocks.map Block.name).Nodup) (hc : Conformal m) {sides : AllSides} {f : File} (hf : saveLso m sides = .ok f) :
    ∃ L : Lso.Loaded D, loadLso f = .ok L ∧ L.inspect = false := by
  obtain ⟨ps, qs, hps, hqs, hm, hp, hw, e⟩ := load_save h hf
  refine ⟨_, e, ?_⟩
  have hS : (stateOf m (solidOf m ps qs)).surfaces = groupSurfaces 0 (groupsOf m (groups m)) := by
    unfold stateOf; rw [foldl_addGroup]; simp
  have hT := LsoRelations.groupSurfaces_triangles m (groups m) 0
  simp only [Bool.or_eq_false_iff]
  constructor
  · have hI : (stateOf m (solidOf m ps qs)).inspect = ((LsoRelations.written m).map (trianglesOf m)).any fun ts =>
        ts.any fun t => (solidFacets (solidOf m ps qs) t).isEmpty := by
      unfold stateOf
      rw [foldl_addGroup, LsoRelations.groupsOf_flatMap]
      rfl
    rw [hI, List.any_eq_false]
    intro ts hts
    obtain ⟨i, hi, rfl⟩ := List.mem_map.1 hts
    rw [Bool.not_eq_true, List.any_eq_false]
    intro t ht
    obtain ⟨b, hb, c, hcb, f, hfc, hper⟩ := hc.facet i hi t ht
    have hin : ∀ v ∈ f, (⟨true, b.id, v⟩ : Cmv) ∈ order m := fun v hv => hp b hb c hcb v (triples_sub hfc v hv)
    have hul : m.uniques.length < W := by have := h.small; rw [order_length hm] at this; omega
    have hgood : GoodTriangle (solidOf m ps qs) t := h.triangles rfl hul t ht
    have hid : (f.map (rank m b.id)).map (idOf (solidOf m ps qs)) = f.map fun v => uniqueOf m ⟨true, b.id, v⟩ := by
      rw [List.map_map]
      refine List.map_congr_left fun v hv => ?_
      simp only [Function.comp, idOf]
      rw [corner_id h.once hps hqs hm (hin v hv)]; rfl
    have hlt : ∀ v ∈ f.map (rank m b.id), v < (solidOf m ps qs).ids.length := by
      intro v hv
      obtain ⟨v0, hv0, rfl⟩ := List.mem_map.1 hv
      exact (List.getElem?_eq_some_iff.1 (corner_id h.once hps hqs hm (hin v0 hv0))).1
    have htet : ∃ c ∈ (solidOf m ps qs).tetras, f.map (rank m b.id) ∈ triples c := by
      refine ⟨c.map (rank m b.id), ?_, ?_⟩
      · change _ ∈ (records m).map Prod.fst
        exact List.mem_map.2 ⟨(c.map (rank m b.id), b.name), List.mem_flatMap.2 ⟨b, hb, List.mem_map.2 ⟨c, hcb, rfl⟩⟩, rfl⟩
      · rw [triples_map]; exact List.mem_map_of_mem hfc
    have := (mem_solidFacets hgood hlt htet).2 (hid ▸ hper)
    rw [Bool.not_eq_true, Bool.eq_false_iff]
    intro he
    rw [List.isEmpty_iff.1 he] at this
    simp at this
  · rw [List.any_eq_false]
    intro b hb
    unfold oddBlock
    rw [LsoRelations.own_tetras h hn hd hb, Bool.not_eq_true, List.any_eq_false]
    rintro ⟨k, o⟩ ho
    unfold relationsOf at ho
    obtain ⟨⟨sf, j⟩, hz, e2⟩ := List.mem_map.1 ho
    simp only [Prod.mk.injEq] at e2
    obtain ⟨e2, e3⟩ := e2
    subst e2
    have hsf : (stateOf m (solidOf m ps qs)).surfaces[j]? = some sf := List.mem_zipIdx_iff_getElem?.1 hz
    have hlen : ((LsoRelations.written m).map (LsoRelations.nbTriangles m))[j]? = some sf.triangles.length := by
      have := congrArg (·[j]?) hT
      simp only [List.getElem?_map] at this
      rw [← hS, hsf] at this
      rw [List.getElem?_map]
      exact this.symm
    rw [List.getElem?_map] at hlen
    obtain ⟨i, hi, hit⟩ := Option.map_eq_some_iff.1 hlen
    unfold relation at e3
    rw [LsoRelations.relationCount_eq h ha hps hqs hm hp hb hi, ← hit] at e3
    simp only at e3
    have := hc.whole i (List.mem_of_getElem? hi) b hb
    rw [← e3]
    split
    · simp
    · rename_i h0
      rcases this with h1 | h1 | h1
      · exact absurd h1 h0
      · simp [h1]
      · simp [h1]

/-- The two tetrahedra and the triangle between them. -/
example : Conformal LsoNumbers.twoBlocks := by
  have e : LsoRelations.written LsoNumbers.twoBlocks = [9] := by decide +kernel
  refine ⟨?_, ?_⟩
  · rw [e]; decide +kernel
  · rw [e]
    have : ∀ b ∈ LsoNumbers.twoBlocks.blocks, LsoRelations.nbFacets LsoNumbers.twoBlocks b 9 / LsoRelations.nbTriangles LsoNumbers.twoBlocks 9 = 1 := by
      decide +kernel
    intro i hi b hb
    rw [List.mem_singleton.1 hi]
    exact Or.inr (Or.inl (this b hb))

/-- A file whose second triangle is not a facet of the solid. -/
def looseFile : File := (LsoCases.oneTetraFile [] []).flatMap fun l => if l = cs!"TRGL 1 2 3" then [l, cs!"TRGL 1 2 2"] else [l]

example : (match loadLso (D := Int) (LsoCases.oneTetraFile [] []) with
    | .ok L => !L.inspect && decide (L.blocks.map (fun b => (b.boundaries, b.internals)) = [([0], [])])
    | _ => false) = true ∧
    (match loadLso (D := Int) looseFile with
    | .ok L => L.inspect && decide (L.blocks.map (fun b => (b.boundaries, b.internals)) = [([], [])])
    | _ => false) = true := by decide +kernel

end Verif.Props.LsoInspect
