import Verif.Lemmas.LsoSolid

/-!
# Writing and reading back the surfaces and the blocks of a solid
-/

namespace Verif.Lso

open Verif Verif.Gocad Verif.GocadMesh Verif.Sides Res

variable {D : Type} [Num D]

/-! ## Writing -/

/-- The surfaces of a list that have not been seen yet. -/
def fresh : List Nat → List Nat → List Nat
  | _, [] => []
  | seen, i :: is => if i ∈ seen then fresh seen is else i :: fresh (seen ++ [i]) is

/-- The collections that are written, with their new surfaces. -/
def kept : List Nat → List (Str × List Nat) → List (Str × List Nat)
  | _, [] => []
  | seen, c :: cs => if fresh seen c.2 = [] then kept seen cs else (c.1, fresh seen c.2) :: kept (seen ++ fresh seen c.2) cs

/-- The line of a triangle given by its vertices. -/
def trglLine (t : List Nat) : Str := cs!"TRGL" ++ spaced (t.map fun v => showNat (v + 1))

/-- The lines of a surface. -/
def faceLines (n : Nat) (key : List Str) (ts : List Str) : File :=
  (cs!"TFACE" ++ spaced [showNat n]) :: (cs!"KEYVERTICES" ++ spaced key) :: ts

/-- The surface with an identifier. -/
def surfaceOf (m : Model D) (i : Nat) : Option Surface := m.surfaces.find? fun s => s.id = i

/-- The lines of surfaces numbered from `n`. -/
def facesLines (m : Model D) : Nat → List Nat → File
  | _, [] => []
  | n, i :: is =>
    (match surfaceOf m i with
     | some s => faceLines n (triangleToks m s (s.triangles.headD [])) (s.triangles.map fun t => cs!"TRGL" ++ spaced (triangleToks m s t))
     | none => []) ++ facesLines m (n + 1) is

/-- The lines of collections. -/
def groupsLines (m : Model D) : Nat → List (Str × List Nat) → File
  | _, [] => []
  | n, g :: gs => (cs!"SURFACE" ++ spaced [g.1]) :: facesLines m n g.2 ++ groupsLines m (n + g.2.length) gs

/-- `exported_surfaces_` after surfaces have been written. -/
def numbered : Nat → List Nat → List (Nat × Nat)
  | _, [] => []
  | n, i :: is => (i, n) :: numbered (n + 1) is

theorem numbered_append (n : Nat) (is js : List Nat) : numbered n (is ++ js) = numbered n is ++ numbered (n + is.length) js := by
  induction is generalizing n with
  | nil => rfl
  | cons i is ih => simp [numbered, ih, Nat.add_assoc, Nat.add_comm 1]

theorem any_numbered (n : Nat) (is : List Nat) (i : Nat) : (numbered n is).any (fun e => e.1 = i) = decide (i ∈ is) := by
  induction is generalizing n with
  | nil => rfl
  | cons j is ih =>
    simp only [numbered, List.any_cons, ih, List.mem_cons]
    by_cases h : j = i <;> by_cases h2 : i ∈ is <;> simp [h, h2, eq_comm]
    · exact fun e => absurd e.symm h

/-- A surface that can be written. -/
def Writable (m : Model D) (i : Nat) : Prop := ∃ s, surfaceOf m i = some s ∧ s.triangles ≠ []

/-- The state after `is` have been written. -/
def sstate (is : List Nat) (lines : File) : SState := { exported := numbered 1 is, next := 1 + is.length, lines := lines }

theorem writeFaces_ok {m : Model D} (is : List Nat) : ∀ {seen : List Nat} {lines : File} {st : SState},
    foldM' (writeFace m) (sstate seen lines) is = .ok st →
    (∀ i ∈ fresh seen is, Writable m i) ∧ st = sstate (seen ++ fresh seen is) (lines ++ facesLines m (1 + seen.length) (fresh seen is)) := by
  induction is with
  | nil =>
    intro seen lines st h
    cases h
    exact ⟨by simp [fresh], by simp [fresh, facesLines]⟩
  | cons i is ih =>
    intro seen lines st h
    rw [foldM'_cons] at h
    obtain ⟨st1, h1, h2⟩ := bind_eq_ok.1 h
    unfold writeFace at h1
    have ha : (sstate seen lines).exported.any (fun e => e.1 = i) = decide (i ∈ seen) := any_numbered 1 seen i
    rw [ha] at h1
    by_cases hi : i ∈ seen
    · rw [if_pos (by simpa using hi)] at h1
      cases h1
      obtain ⟨g1, g2⟩ := ih h2
      rw [fresh, if_pos hi]
      exact ⟨g1, g2⟩
    · rw [if_neg (by simpa using hi)] at h1
      obtain ⟨s, hs, h3⟩ := bind_eq_ok.1 h1
      obtain ⟨t, ht, h4⟩ := bind_eq_ok.1 h3
      have hs' : surfaceOf m i = some s := ofParse_eq_ok.1 hs
      have ht' := index_eq_ok.1 ht
      have hh : s.triangles.headD [] = t := by
        cases hst : s.triangles with
        | nil => rw [hst] at ht'; simp at ht'
        | cons a b => rw [hst] at ht'; simpa using ht'
      have e1 : st1 = sstate (seen ++ [i]) (lines ++ facesLines m (1 + seen.length) [i]) := by
        have := Res.ok.inj h4
        rw [← this]
        unfold sstate
        rw [numbered_append]
        simp only [numbered, facesLines, hs', hh, faceLines, List.length_append, List.length_singleton, List.append_nil, List.append_assoc]
        simp [Nat.add_assoc]
      rw [e1] at h2
      obtain ⟨g1, g2⟩ := ih h2
      rw [fresh, if_neg hi]
      refine ⟨?_, ?_⟩
      · intro j hj
        rcases List.mem_cons.1 hj with rfl | hj
        · refine ⟨s, hs', ?_⟩
          intro e; rw [e] at ht'; simp at ht'
        · exact g1 j hj
      · rw [g2]
        congr 1
        · simp
        · have : ∀ n js, facesLines m n (i :: js) = facesLines m n [i] ++ facesLines m (n + 1) js := by
            intro n js; simp only [facesLines, List.append_nil]
          rw [this _ (fresh (seen ++ [i]) is)]
          simp only [List.length_append, List.length_singleton, List.append_assoc, Nat.add_assoc]

theorem fresh_nil_iff {seen is : List Nat} : fresh seen is = [] ↔ ∀ i ∈ is, i ∈ seen := by
  induction is with
  | nil => simp [fresh]
  | cons i is ih =>
    by_cases h : i ∈ seen
    · rw [fresh, if_pos h, ih]; simp [h]
    · rw [fresh, if_neg h]; simp [h]

theorem writeCollections_ok {m : Model D} (cs : List (Str × List Nat)) : ∀ {seen : List Nat} {lines : File} {st : SState},
    foldM' (writeCollection m) (sstate seen lines) cs = .ok st →
    (∀ g ∈ kept seen cs, ∀ i ∈ g.2, Writable m i) ∧
      st = sstate (seen ++ (kept seen cs).flatMap Prod.snd) (lines ++ groupsLines m (1 + seen.length) (kept seen cs)) := by
  induction cs with
  | nil =>
    intro seen lines st h
    cases h
    exact ⟨by simp [kept], by simp [kept, groupsLines]⟩
  | cons c cs ih =>
    intro seen lines st h
    rw [foldM'_cons] at h
    obtain ⟨st1, h1, h2⟩ := bind_eq_ok.1 h
    unfold writeCollection at h1
    have ha : c.2.all (fun i => (sstate seen lines).exported.any fun e => e.1 = i) = decide (fresh seen c.2 = []) := by
      have : ∀ i, ((sstate seen lines).exported.any fun e => e.1 = i) = decide (i ∈ seen) := any_numbered 1 seen
      simp only [this]
      rw [Bool.eq_iff_iff]
      simp [fresh_nil_iff]
    rw [ha] at h1
    by_cases hf : fresh seen c.2 = []
    · rw [if_pos (by simpa using hf)] at h1
      cases h1
      rw [kept, if_pos hf]
      exact ih h2
    · rw [if_neg (by simpa using hf)] at h1
      obtain ⟨g1, g2⟩ := writeFaces_ok (seen := seen) c.2 h1
      rw [g2] at h2
      obtain ⟨k1, k2⟩ := ih h2
      rw [kept, if_neg hf]
      refine ⟨?_, ?_⟩
      · intro g hg i hi
        rcases List.mem_cons.1 hg with rfl | hg
        · exact g1 i hi
        · exact k1 g hg i hi
      · rw [k2]
        congr 1
        · simp
        · simp [groupsLines, sstate, List.append_assoc, Nat.add_assoc]

/-! ## Reading -/

/-- The facets of the solid with the given unique vertices. -/
def solidFacets (s : Solid D) (t : List Nat) : List (List Nat) :=
  match facetsFrom s t with
  | .ok fs => fs
  | _ => []

/-- A triangle added to the last surface. -/
def addTriangle (s : Solid D) (st : RState) (t : List Nat) : RState :=
  match st.surfaces.reverse with
  | [] => st
  | cur :: before =>
    { st with
      surfaces := before.reverse ++ [{ cur with vertices := (localCell cur.vertices t).1, triangles := cur.triangles ++ [(localCell cur.vertices t).2] }]
      facetIds := (solidFacets s t).reverse.map (fun k => (k, before.length)) ++ st.facetIds
      inspect := st.inspect || (solidFacets s t).isEmpty }

/-- A triangle that can be read: three unique vertices that exist. -/
def GoodTriangle (s : Solid D) (t : List Nat) : Prop := t.length = 3 ∧ ∀ v ∈ t, v < s.nbUnique ∧ v + 1 < W

theorem facetsFrom_ok {s : Solid D} {t : List Nat} (h : GoodTriangle s t) : facetsFrom s t = .ok (solidFacets s t) := by
  obtain ⟨h3, hv⟩ := h
  match t, h3, hv with
  | [a, b, c], _, hv =>
    have ha : a < s.nbUnique := (hv a (by simp)).1
    have hb : b < s.nbUnique := (hv b (by simp)).1
    have hc : c < s.nbUnique := (hv c (by simp)).1
    have : ∃ fs, facetsFrom s [a, b, c] = .ok fs := by
      unfold facetsFrom copies
      simp only [index_cons_zero, index_cons_succ, ok_bind, if_pos ha, if_pos hb, if_pos hc]
      exact ⟨_, rfl⟩
    obtain ⟨fs, e⟩ := this
    unfold solidFacets
    rw [e]

theorem split_trgl (t : List Nat) : split (trglLine t) = cs!"TRGL" :: t.map fun v => showNat (v + 1) := by
  refine split_kw_spaced (by decide) ?_
  intro x hx
  obtain ⟨v, _, rfl⟩ := List.mem_map.1 hx
  exact isTok_showNat _

theorem readTriangle_line {s : Solid D} {st : RState} {t : List Nat} (h : GoodTriangle s t) (hp : s.nbUnique ≤ s.points.length)
    (hs : st.surfaces ≠ []) : readTriangle s st (trglLine t) = .ok (addTriangle s st t) := by
  unfold readTriangle
  have e1 : readCell 3 (split (trglLine t)) = .ok t := by
    rw [split_trgl, readCell_toks _ _ (fun v hv => (h.2 v hv).2) 3 h.1]
  have e2 : ∃ ps, Res.mapM' (Res.index s.points) t = .ok ps := by
    have hv := fun v hv => (h.2 v hv).1
    clear h e1
    induction t with
    | nil => exact ⟨[], rfl⟩
    | cons v t ih =>
      obtain ⟨ps, e⟩ := ih fun v hv' => hv v (List.mem_cons_of_mem _ hv')
      have : v < s.points.length := by have := hv v (by simp); omega
      exact ⟨_, by rw [mapM'_cons, index_of_lt this, ok_bind, e]; rfl⟩
  obtain ⟨ps, e2⟩ := e2
  rw [e1, ok_bind, e2, ok_bind, facetsFrom_ok h, ok_bind]
  unfold addTriangle
  cases hr : st.surfaces.reverse with
  | nil => exact absurd (List.reverse_eq_nil_iff.1 hr) hs
  | cons a b => rfl

/-- Triangles added to the last surface. -/
def addTriangles (s : Solid D) (st : RState) (ts : List (List Nat)) : RState := ts.foldl (addTriangle s) st

theorem addTriangle_ne {s : Solid D} {st : RState} {t : List Nat} (h : st.surfaces ≠ []) : (addTriangle s st t).surfaces ≠ [] := by
  unfold addTriangle
  cases hr : st.surfaces.reverse with
  | nil => exact absurd (List.reverse_eq_nil_iff.1 hr) h
  | cons a b => simp

theorem read_trgls {s : Solid D} (hp : s.nbUnique ≤ s.points.length) (ts : List (List Nat)) (rest : File) : ∀ {st : RState},
    (∀ t ∈ ts, GoodTriangle s t) → st.surfaces ≠ [] →
    readSurfacesLoop s (st, .triangles) (ts.map trglLine ++ rest) = readSurfacesLoop s (addTriangles s st ts, .triangles) rest := by
  induction ts with
  | nil => intro st _ _; rfl
  | cons t ts ih =>
    intro st h hs
    rw [List.map_cons, List.cons_append, readSurfacesLoop]
    have : surfacesStep s (st, .triangles) (trglLine t) = .ok (some (addTriangle s st t, .triangles)) := by
      unfold surfacesStep
      have hk : startsWith (trglLine t) cs!"TRGL" = true := startsWith_append _ _
      simp only [hk, if_true]
      rw [readTriangle_line (h t (by simp)) hp hs]; rfl
    rw [this, ok_bind]
    dsimp only
    rw [ih (fun t ht => h t (List.mem_cons_of_mem _ ht)) (addTriangle_ne hs)]
    rfl

/-- A surface started. -/
def startFace (st : RState) : RState :=
  { st with surfaces := st.surfaces ++ [{ name := st.horizons.getLastD [], horizon := st.horizons.length - 1 }] }

theorem read_face {s : Solid D} (hp : s.nbUnique ≤ s.points.length) (ts : List (List Nat)) (n : Nat) (key : List Str) (rest : File) {st : RState} {mode : Mode}
    (hm : mode ≠ .key) (h : ∀ t ∈ ts, GoodTriangle s t) :
    readSurfacesLoop s (st, mode) (faceLines n key (ts.map trglLine) ++ rest) =
      readSurfacesLoop s (addTriangles s (startFace st) ts, .triangles) rest := by
  have hstep : surfacesStep s (st, mode) (cs!"TFACE" ++ spaced [showNat n]) = .ok (some (startFace st, .key)) := by
    cases mode with
    | key => exact absurd rfl hm
    | faces => rfl
    | triangles => rfl
  have e : faceLines n key (ts.map trglLine) ++ rest = (cs!"TFACE" ++ spaced [showNat n]) :: (cs!"KEYVERTICES" ++ spaced key) :: (ts.map trglLine ++ rest) := rfl
  rw [e, readSurfacesLoop, hstep, ok_bind]
  dsimp only
  rw [readSurfacesLoop]
  have : surfacesStep s (startFace st, .key) (cs!"KEYVERTICES" ++ spaced key) = .ok (some (startFace st, .triangles)) := rfl
  rw [this, ok_bind]
  exact read_trgls hp ts rest h (by simp [startFace])

/-- Faces given by their triangles, read. -/
def addFaces (s : Solid D) (st : RState) (fs : List (List (List Nat))) : RState := fs.foldl (fun st ts => addTriangles s (startFace st) ts) st

/-- A group read. -/
def addGroup (s : Solid D) (st : RState) (g : Str × List (List (List Nat))) : RState := addFaces s { st with horizons := st.horizons ++ [g.1] } g.2

/-- The triangles of a surface, by unique vertices. -/
def trianglesOf (m : Model D) (i : Nat) : List (List Nat) :=
  match surfaceOf m i with
  | some s => s.triangles.map fun t => t.map fun v => uniqueOf m ⟨false, s.id, v⟩
  | none => []

theorem triangleToks_eq (m : Model D) (s : Surface) (t : List Nat) (h : ∀ v ∈ t, uniqueOf m ⟨false, s.id, v⟩ + 1 < W) :
    triangleToks m s t = (t.map fun v => uniqueOf m ⟨false, s.id, v⟩).map fun v => showNat (v + 1) := by
  unfold triangleToks
  rw [List.map_map]
  refine List.map_congr_left fun v hv => ?_
  simp only [Function.comp]
  rw [Nat.mod_eq_of_lt (h v hv)]

theorem read_faces {m : Model D} {s : Solid D} (hp : s.nbUnique ≤ s.points.length) (is : List Nat) (rest : File) : ∀ {st : RState} {mode : Mode} (n : Nat),
    mode ≠ .key → (∀ i ∈ is, Writable m i ∧ ∀ t ∈ trianglesOf m i, GoodTriangle s t) →
    ∃ mode', mode' ≠ .key ∧ readSurfacesLoop s (st, mode) (facesLines m n is ++ rest) =
      readSurfacesLoop s (addFaces s st (is.map (trianglesOf m)), mode') rest := by
  induction is with
  | nil => intro st mode n hm _; exact ⟨mode, hm, rfl⟩
  | cons i is ih =>
    intro st mode n hm h
    obtain ⟨⟨sf, hsf, _⟩, hg⟩ := h i (by simp)
    have ht : trianglesOf m i = sf.triangles.map fun t => t.map fun v => uniqueOf m ⟨false, sf.id, v⟩ := by
      unfold trianglesOf; rw [hsf]
    have hl : (sf.triangles.map fun t => cs!"TRGL" ++ spaced (triangleToks m sf t)) = (trianglesOf m i).map trglLine := by
      rw [ht, List.map_map]
      refine List.map_congr_left fun t hti => ?_
      have hgt := hg _ (by rw [ht]; exact List.mem_map_of_mem hti)
      have e := triangleToks_eq m sf t fun v hv => (hgt.2 _ (List.mem_map_of_mem hv)).2
      rw [e]; rfl
    obtain ⟨mode', hm', e⟩ := ih (st := addTriangles s (startFace st) (trianglesOf m i)) (mode := .triangles) (n + 1) (by decide)
      (fun j hj => h j (List.mem_cons_of_mem _ hj))
    refine ⟨mode', hm', ?_⟩
    rw [facesLines, hsf]
    dsimp only
    rw [hl, List.append_assoc, read_face hp _ _ _ _ hm hg, e]
    rfl

/-- The groups with the triangles of their surfaces. -/
def groupsOf (m : Model D) (gs : List (Str × List Nat)) : List (Str × List (List (List Nat))) := gs.map fun g => (g.1, g.2.map (trianglesOf m))

theorem split_surface (n : Str) : split (cs!"SURFACE" ++ spaced [n]) = cs!"SURFACE" :: split n := by
  rw [split_kw_spaced' (by decide)]; simp

theorem surfaceLine_name {st : RState} {n : Str} (h : GoodName n) :
    surfaceLine st (cs!"SURFACE" ++ spaced [n]) = .ok (some ({ st with horizons := st.horizons ++ [n] }, .faces)) := by
  unfold surfaceLine
  have hk : startsWith (cs!"SURFACE" ++ spaced [n]) cs!"SURFACE" = true := startsWith_append _ _
  rw [if_pos hk, split_surface]
  have : ∃ w, Res.index (cs!"SURFACE" :: split n) 1 = .ok w := by
    cases hs : split n with
    | nil => exact absurd hs h.1
    | cons a b => exact ⟨a, rfl⟩
  obtain ⟨w, hw⟩ := this
  rw [hw, ok_bind, List.drop_one, List.tail_cons, readName_split h.obj]
  rfl

theorem read_groups {m : Model D} {s : Solid D} (hp : s.nbUnique ≤ s.points.length) (gs : List (Str × List Nat)) (rest : File) :
    ∀ {st : RState} {mode : Mode} (n : Nat), mode ≠ .key →
    (∀ g ∈ gs, GoodName g.1 ∧ ∀ i ∈ g.2, Writable m i ∧ ∀ t ∈ trianglesOf m i, GoodTriangle s t) →
    ∃ mode', mode' ≠ .key ∧ readSurfacesLoop s (st, mode) (groupsLines m n gs ++ rest) =
      readSurfacesLoop s ((groupsOf m gs).foldl (addGroup s) st, mode') rest := by
  induction gs with
  | nil => intro st mode n hm _; exact ⟨mode, hm, rfl⟩
  | cons g gs ih =>
    intro st mode n hm h
    obtain ⟨hn, hg⟩ := h g (by simp)
    obtain ⟨mode1, hm1, e1⟩ := read_faces (st := { st with horizons := st.horizons ++ [g.1] }) (mode := .faces) hp g.2
      (groupsLines m (n + g.2.length) gs ++ rest) n (by decide) hg
    obtain ⟨mode2, hm2, e2⟩ := ih (st := addGroup s st (g.1, g.2.map (trianglesOf m))) (mode := mode1) (n + g.2.length) hm1
      (fun g' hg' => h g' (List.mem_cons_of_mem _ hg'))
    refine ⟨mode2, hm2, ?_⟩
    have hstep : surfacesStep s (st, mode) (cs!"SURFACE" ++ spaced [g.1]) = .ok (some ({ st with horizons := st.horizons ++ [g.1] }, .faces)) := by
      cases mode with
      | key => exact absurd rfl hm
      | faces => exact surfaceLine_name hn
      | triangles => exact surfaceLine_name hn
    have e : groupsLines m n (g :: gs) ++ rest = (cs!"SURFACE" ++ spaced [g.1]) :: (facesLines m n g.2 ++ groupsLines m (n + g.2.length) gs ++ rest) := rfl
    rw [e, readSurfacesLoop, hstep, ok_bind, List.append_assoc]
    dsimp only
    rw [e1]
    exact e2

theorem readSurfaces_lines {m : Model D} {s : Solid D} (hp : s.nbUnique ≤ s.points.length) (gs : List (Str × List Nat)) (l : Str) (rest : File)
    (hl : ∀ kw ∈ [cs!"SURFACE", cs!"TFACE", cs!"TRGL"], startsWith l kw = false)
    (h : ∀ g ∈ gs, GoodName g.1 ∧ ∀ i ∈ g.2, Writable m i ∧ ∀ t ∈ trianglesOf m i, GoodTriangle s t) :
    readSurfaces s cs!"MODEL" (groupsLines m 1 gs ++ l :: rest) = .ok ((groupsOf m gs).foldl (addGroup s) {}, l, rest) := by
  have h1 := hl cs!"SURFACE" (by simp)
  have h2 := hl cs!"TFACE" (by simp)
  have h3 := hl cs!"TRGL" (by simp)
  have hmo : startsWith cs!"MODEL" cs!"MODEL" = true := rfl
  have hend : ∀ (st : RState) (mode : Mode), mode ≠ .key → readSurfacesLoop s (st, mode) (l :: rest) = .ok (st, l, rest) := by
    intro st mode hm
    rw [readSurfacesLoop]
    have : surfacesStep s (st, mode) l = .ok none := by
      cases mode with
      | key => exact absurd rfl hm
      | faces => simp [surfacesStep, faceLine, surfaceLine, h1, h2]
      | triangles => simp [surfacesStep, faceLine, surfaceLine, h1, h2, h3]
    rw [this, ok_bind]; rfl
  unfold readSurfaces
  rw [if_pos hmo, ok_bind]
  cases gs with
  | nil =>
    have : surfaceLine {} l = .ok none := by simp [surfaceLine, h1]
    change (do
      match ← surfaceLine {} l with
      | none => pure ({}, l, rest)
      | some r => readSurfacesLoop s r rest : Res (RState × Str × File)) = _
    rw [this]; rfl
  | cons g gs =>
    obtain ⟨hn, hg⟩ := h g (by simp)
    obtain ⟨mode1, hm1, e1⟩ := read_faces (st := { horizons := [g.1] }) (mode := .faces) hp g.2
      (groupsLines m (1 + g.2.length) gs ++ l :: rest) 1 (by decide) hg
    obtain ⟨mode2, hm2, e2⟩ := read_groups (st := addGroup s {} (g.1, g.2.map (trianglesOf m))) (mode := mode1) hp gs (l :: rest) (1 + g.2.length) hm1
      (fun g' hg' => h g' (List.mem_cons_of_mem _ hg'))
    have e : groupsLines m 1 (g :: gs) ++ l :: rest =
      (cs!"SURFACE" ++ spaced [g.1]) :: (facesLines m 1 g.2 ++ groupsLines m (1 + g.2.length) gs ++ l :: rest) := rfl
    rw [e]
    dsimp only
    rw [surfaceLine_name hn, ok_bind, List.append_assoc]
    dsimp only
    refine e1.trans (e2.trans ?_)
    exact hend _ _ hm2

end Verif.Lso
