import Verif.Lemmas.Spacing

/-!
# Blanks between words: the readers
-/

namespace Verif.Spacing

open Verif Verif.Gocad Verif.GocadMesh
open Verif.LineEnds (bind_same map_throw map_ub map_diverge)

variable {D : Type} [Num D] {t : Kind}

theorem tidy_nil (t : Kind) : tidy t [] = [] := by unfold tidy; split <;> rfl

/-! ## GOCAD meshes -/

theorem tsLoop_tidy : ∀ (n : Nat) (m : Loaded Tri D) (f : File), loadTSLoop n m (tidies .gocad f) = loadTSLoop n m f
  | 0, _, _ => rfl
  | n + 1, m, f => by
    simp only [loadTSLoop]
    rw [tsurf_tidy, LineEnds.bind_map]
    refine bind_same fun o => ?_
    cases o with
    | none => rfl
    | some x => exact bind_same fun m => tsLoop_tidy n m x.2

theorem vsLoop_tidy : ∀ (n : Nat) (m : Loaded Empty D) (f : File), loadVSLoop n m (tidies .gocad f) = loadVSLoop n m f
  | 0, _, _ => rfl
  | n + 1, m, f => by
    simp only [loadVSLoop]
    rw [vset_tidy, LineEnds.bind_map]
    refine bind_same fun o => ?_
    cases o with
    | none => rfl
    | some x => exact bind_same fun m => vsLoop_tidy n m x.2

theorem plLoop_tidy : ∀ (n : Nat) (m : Loaded Edge D) (f : File), loadPLLoop n m (tidies .gocad f) = loadPLLoop n m f
  | 0, _, _ => rfl
  | n + 1, m, f => by
    simp only [loadPLLoop]
    rw [curve_tidy, LineEnds.bind_map]
    refine bind_same fun o => ?_
    cases o with
    | none => rfl
    | some x => exact bind_same fun m => plLoop_tidy n m x.2

/-! ## Wells -/

section Wells

open Verif.Wells

theorem wlCoord_tidy (l : Str) (n : Nat) : (wlCoord (tidy t l) n : Res (Pt D)) = wlCoord l n := by
  unfold wlCoord
  rw [split_tidy]

theorem coords_tidy (f : File) : (Res.mapM' readCoord3 (tidies t f) : Res (List (Pt D))) = Res.mapM' readCoord3 f := by
  induction f with
  | nil => rfl
  | cons l f ih =>
    have : (readCoord3 (tidy t l) : Res (Pt D)) = readCoord3 l := by unfold readCoord3; rw [split_tidy]
    rw [tidies_cons, Res.mapM'_cons, Res.mapM'_cons, this, ih]

theorem devHeaderLoop_tidy : ∀ (f : File) (h : DevHeader) (first : Bool), devHeaderLoop h first (tidies .petrel f) = onRest .petrel <$> devHeaderLoop h first f
  | [], _, _ => rfl
  | l :: f, h, first => by
    simp only [tidies_cons, devHeaderLoop, starts_tidy (key (show IsTok cs!"#===" by decide)), starts_tidy (show Key .petrel cs!"# WELL NAME:" by decide), split_tidy]
    split
    · split
      · exact devHeaderLoop_tidy f h false
      · rfl
    · split
      · rw [LineEnds.map_bind]
        exact bind_same fun n => devHeaderLoop_tidy f _ first
      · split
        · exact devHeaderLoop_tidy f h first
        · rw [LineEnds.map_bind]
          refine bind_same fun _ => ?_
          rw [LineEnds.map_bind]
          exact bind_same fun _ => devHeaderLoop_tidy f _ first

theorem rows_tidy (h : DevHeader) (f : File) : (Res.mapM' (devRow h) (tidies t f) : Res (List (Pt D × List (Str × D)))) = Res.mapM' (devRow h) f := by
  induction f with
  | nil => rfl
  | cons l f ih =>
    have : (devRow h (tidy t l) : Res (Pt D × List (Str × D))) = devRow h l := by unfold devRow; rw [split_tidy]
    rw [tidies_cons, Res.mapM'_cons, Res.mapM'_cons, this, ih]

theorem paths_tidy [Add D] (z : Bool) (ref : Pt D) : ∀ (f : File) (ps : List (Pt D)), wlPaths z ref ps (tidies t f) = wlPaths z ref ps f
  | [], _ => rfl
  | l :: f, ps => by
    simp only [tidies_cons, wlPaths, starts_tidy (key (show IsTok cs!"PATH" by decide)), wlCoord_tidy]
    split
    · exact bind_same fun t => paths_tidy z ref f _
    · rfl

end Wells

/-! ## Structural models -/

section Ml

open Verif.Ml

theorem step_tidy (s : RState × Mode) (l : Str) : step s (tidy t l) = step s l := by
  obtain ⟨st, m⟩ := s
  cases m <;> simp only [step, topLine, split_tidy]

theorem lines_tidy : ∀ (f : File) (s : RState × Mode), readLines s (tidies t f) = onRest t <$> readLines s f
  | [], (st, m) => by cases m <;> rfl
  | l :: f, (st, m) => by
    simp only [tidies_cons, readLines, starts_tidy (key (show IsTok cs!"END" by decide)), step_tidy]
    split
    · rfl
    · rw [LineEnds.map_bind]
      exact bind_same fun s => lines_tidy f s

theorem mlSurfaces_tidy : ∀ (ts : List RTsurf) (f : File), (readSurfaces ts (tidies .gocad f) : Res (List (Nat × List (Pt D) × List Tri))) = readSurfaces ts f
  | [], _ => rfl
  | t :: ts, f => by
    simp only [readSurfaces]
    rw [tsurf_tidy, LineEnds.bind_map]
    refine bind_same fun o => ?_
    cases o with
    | none => rfl
    | some x =>
      refine bind_same fun faces => ?_
      simp only [mlSurfaces_tidy ts x.2]

theorem data_tidy : ∀ (ts : List RTsurf) (f : File), (readData ts (tidies .gocad f) : Res (List (TSurf D × List Nat))) = readData ts f
  | [], _ => rfl
  | t :: ts, f => by
    simp only [readData]
    rw [tsurf_tidy, LineEnds.bind_map]
    refine bind_same fun o => ?_
    cases o with
    | none => rfl
    | some x => simp only [Option.map_some, onRest, data_tidy ts x.2]

theorem ml_tidy (f : File) : (loadMl (tidies .gocad f) : Res (Ml.Loaded D)) = loadMl f := by
  unfold loadMl
  rw [goto_tidy (t := .gocad) (by decide), LineEnds.bind_map]
  refine bind_same fun ⟨l, f⟩ => ?_
  simp only [onLine]
  rw [header_tidy, LineEnds.bind_map]
  refine bind_same fun ⟨name, f⟩ => ?_
  simp only [onRest]
  rw [crs_tidy, LineEnds.bind_map]
  refine bind_same fun ⟨crs, f⟩ => ?_
  simp only [onRest]
  rw [lines_tidy, LineEnds.bind_map]
  refine bind_same fun ⟨st, f⟩ => ?_
  simp only [onRest, mlSurfaces_tidy]

theorem corners_tidy (f : File) : (loadCorners (tidies .gocad f) : Res (List (Pt D × Nat × Nat) × List (Nat × Nat × Nat))) = loadCorners f := by
  unfold loadCorners
  rw [goto_tidy (t := .gocad) (by decide), LineEnds.bind_map]
  refine bind_same fun ⟨l, f⟩ => ?_
  simp only [onLine]
  rw [header_tidy, LineEnds.bind_map]
  refine bind_same fun ⟨name, f⟩ => ?_
  simp only [onRest]
  rw [crs_tidy, LineEnds.bind_map]
  refine bind_same fun ⟨crs, f⟩ => ?_
  simp only [onRest]
  rw [lines_tidy, LineEnds.bind_map]
  refine bind_same fun ⟨st, f⟩ => ?_
  simp only [onRest, data_tidy]

end Ml

section Lso

open Verif.Lso

/-- A result with a line and the lines after it. -/
def onLine3 (t : Kind) {A : Type} (x : A × Str × File) : A × Str × File := (x.1, tidy t x.2.1, tidies t x.2.2)

theorem nextLine_tidy (f : File) : nextLine (tidies t f) = onLine t (nextLine f) := by
  cases f with
  | nil => simp [nextLine, onLine, tidy_nil]
  | cons l f => rfl

theorem vertex_tidy (z : Bool) (es : List Nat) (s : Solid D) (l : Str) : readVertex z es s (tidy t l) = readVertex z es s l := by
  unfold readVertex
  simp only [split_tidy, starts_tidy (key (show IsTok cs!"SHARED" by decide))]

theorem verticesLoop_tidy (z : Bool) (es : List Nat) : ∀ (f : File) (s : Solid D), readVerticesLoop z es s (tidies t f) = onLine3 t <$> readVerticesLoop z es s f
  | [], _ => by simp [readVerticesLoop, onLine3, tidy_nil]
  | l :: f, s => by
    simp only [tidies_cons, readVerticesLoop, contains_tidy ((show IsTok cs!"VRTX" by decide)), vertex_tidy]
    split
    · rw [LineEnds.map_bind]
      exact bind_same fun s => verticesLoop_tidy z es f s
    · rfl

theorem vertices_tidy (z : Bool) (es : List Nat) (s : Solid D) (f : File) : readVertices z es s (tidies t f) = onLine3 t <$> readVertices z es s f := by
  unfold readVertices
  rw [gotos_tidy (t := t) (by intro k hk; exact key (by revert k; decide)), LineEnds.bind_map, LineEnds.map_bind]
  refine bind_same fun ⟨l, f⟩ => ?_
  simp only [onLine, vertex_tidy, LineEnds.map_bind]
  exact bind_same fun s => verticesLoop_tidy z es f s

theorem keyKind {a kind b : Str} (ha : IsTok a) (hp : ∀ c ∈ kind, isWs c = false) (hb : IsTok b) : Key t (a ++ kind ++ b) :=
  keyAppend (fun c hc => (List.mem_append.1 hc).elim (ha.2 c) (hp c)) hb

theorem skip_tidy {kind : Str} (hp : ∀ c ∈ kind, isWs c = false) (l : Str) (f : File) : skipSection kind (tidy t l) (tidies t f) = onLine t <$> skipSection kind l f := by
  unfold skipSection
  rw [starts_tidy (keyKind (by decide) hp (by decide))]
  split
  · rw [goto_tidy (keyKind (by decide) hp (by decide)), LineEnds.bind_map, LineEnds.map_bind]
    refine bind_same fun ⟨l, f⟩ => ?_
    simp only [onLine, nextLine_tidy]
    rfl
  · rfl

theorem tetra_tidy (es : List Nat) (s : Solid D) (l l2 : Str) : readTetra es s (tidy t l) (tidy t l2) = readTetra es s l l2 := by
  unfold readTetra
  simp only [split_tidy]

theorem tetras_tidy (es : List Nat) : ∀ (f : File) (s : Solid D) (l : Str), readTetras es s (tidy t l) (tidies t f) = onLine3 t <$> readTetras es s l f
  | [], s, l => by
    have := tetra_tidy (t := t) es s l []
    rw [tidy_nil] at this
    simp only [tidies_nil, readTetras, this, LineEnds.map_bind]
    exact bind_same fun s => by simp [onLine3, tidy_nil]
  | [l2], s, l => by
    simp only [tidies_cons, tidies_nil, readTetras, tetra_tidy, LineEnds.map_bind]
    exact bind_same fun s => by simp [onLine3, tidy_nil]
  | l2 :: l3 :: f, s, l => by
    simp only [tidies_cons, readTetras, tetra_tidy, LineEnds.map_bind, starts_tidy (key (show IsTok cs!"TETRA" by decide))]
    refine bind_same fun s => ?_
    split
    · exact tetras_tidy es f s l3
    · rfl

omit [Num D] in
theorem triangle_tidy (s : Solid D) (st : RState) (l : Str) : readTriangle s st (tidy t l) = readTriangle s st l := by
  unfold readTriangle
  rw [split_tidy]

theorem surfaceLine_tidy (st : RState) (l : Str) : surfaceLine st (tidy t l) = surfaceLine st l := by
  unfold surfaceLine
  simp only [split_tidy, starts_tidy (key (show IsTok cs!"SURFACE" by decide))]

theorem faceLine_tidy (st : RState) (l : Str) : faceLine st (tidy t l) = faceLine st l := by
  unfold faceLine
  simp only [surfaceLine_tidy, starts_tidy (key (show IsTok cs!"TFACE" by decide))]

omit [Num D] in
theorem surfacesStep_tidy (s : Solid D) (x : RState × Mode) (l : Str) : surfacesStep s x (tidy t l) = surfacesStep s x l := by
  obtain ⟨st, m⟩ := x
  cases m <;> simp only [surfacesStep, faceLine_tidy, triangle_tidy, starts_tidy (key (show IsTok cs!"TRGL" by decide))]

theorem surfacesLoop_tidy (s : Solid D) : ∀ (f : File) (x : RState × Mode), readSurfacesLoop s x (tidies t f) = onLine3 t <$> readSurfacesLoop s x f
  | [], (_, _) => by simp [readSurfacesLoop, onLine3, tidy_nil]
  | l :: f, (st, m) => by
    simp only [tidies_cons, readSurfacesLoop, surfacesStep_tidy, LineEnds.map_bind]
    refine bind_same fun o => ?_
    cases o with
    | none => rfl
    | some r => exact surfacesLoop_tidy s f r

theorem surfaces_tidy (s : Solid D) (l : Str) (f : File) : readSurfaces s (tidy t l) (tidies t f) = onLine3 t <$> readSurfaces s l f := by
  have start : ∀ f : File, (match tidies t f with
      | [] => pure ({}, [], [])
      | l :: ls => do
        match ← surfaceLine {} l with
        | none => pure ({}, l, ls)
        | some r => readSurfacesLoop s r ls : Res (RState × Str × File)) = onLine3 t <$> (match f with
      | [] => pure ({}, [], [])
      | l :: ls => do
        match ← surfaceLine {} l with
        | none => pure ({}, l, ls)
        | some r => readSurfacesLoop s r ls : Res (RState × Str × File)) := by
    intro f
    cases f with
    | nil => simp [onLine3, tidy_nil]
    | cons l f =>
      simp only [tidies_cons, surfaceLine_tidy, LineEnds.map_bind]
      refine bind_same fun o => ?_
      cases o with
      | none => rfl
      | some r => exact surfacesLoop_tidy s f r
  unfold readSurfaces
  rw [starts_tidy (key (by decide))]
  split
  · exact start f
  · rw [goto_tidy (key (by decide))]
    simp only [LineEnds.bind_map, LineEnds.map_bind, Res.bind_assoc']
    refine bind_same fun ⟨l, f⟩ => ?_
    exact start f

omit [Num D] in
theorem readBlock_tidy (h : Headers D) (s : Solid D) (st : RState) (l : Str) : readBlock h s st (tidy t l) = readBlock h s st l := by
  unfold readBlock
  rw [split_tidy]

omit [Num D] in
theorem blocks_tidy (h : Headers D) (s : Solid D) (st : RState) : ∀ (f : File) (x : List (RBlock D) × Bool) (l : Str),
    readBlocks h s st x (tidy t l) (tidies t f) = readBlocks h s st x l f
  | [], (bs, i), l => by simp only [tidies_nil, readBlocks, starts_tidy (key (show IsTok cs!"MODEL_REGION" by decide)), readBlock_tidy]
  | l2 :: f, (bs, i), l => by
    simp only [tidies_cons, readBlocks, starts_tidy (key (show IsTok cs!"MODEL_REGION" by decide)), readBlock_tidy]
    split
    · exact bind_same fun ⟨b, j⟩ => blocks_tidy h s st f _ l2
    · rfl

theorem lso_tidy (f : File) : (loadLso (tidies .gocad f) : Res (Lso.Loaded D)) = loadLso f := by
  unfold loadLso
  rw [goto_tidy (t := .gocad) (by decide), LineEnds.bind_map]
  refine bind_same fun ⟨l, f⟩ => ?_
  simp only [onLine]
  rw [header_tidy, LineEnds.bind_map]
  refine bind_same fun ⟨name, f⟩ => ?_
  simp only [onRest]
  rw [crs_tidy, LineEnds.bind_map]
  refine bind_same fun ⟨crs, f⟩ => ?_
  simp only [onRest]
  rw [props_tidy (by decide), LineEnds.bind_map]
  refine bind_same fun ⟨vh, f⟩ => ?_
  simp only [onRest]
  rw [props_tidy (by decide), LineEnds.bind_map]
  refine bind_same fun ⟨th, f⟩ => ?_
  simp only [onRest]
  rw [vertices_tidy, LineEnds.bind_map]
  refine bind_same fun ⟨s, l, f⟩ => ?_
  simp only [onLine3]
  rw [skip_tidy (by decide), LineEnds.bind_map]
  refine bind_same fun ⟨l, f⟩ => ?_
  simp only [onLine]
  rw [tetras_tidy, LineEnds.bind_map]
  refine bind_same fun ⟨s, l, f⟩ => ?_
  simp only [onLine3]
  rw [skip_tidy (by decide), LineEnds.bind_map]
  refine bind_same fun ⟨l, f⟩ => ?_
  simp only [onLine]
  rw [surfaces_tidy, LineEnds.bind_map]
  refine bind_same fun ⟨st, l, f⟩ => ?_
  simp only [onLine3, blocks_tidy]

end Lso


/-! ## Corner point grids -/

section Grdecl

open Verif.Grdecl

theorem includesLoop_none : ∀ f : File, (∀ l ∈ f, startsWith l cs!"INCLUDE" = false) → includesLoop false f = .ok []
  | [], _ => rfl
  | l :: f, h => by
    simp only [includesLoop, h l (by simp)]
    exact includesLoop_none f fun m hm => h m (by simp [hm])

theorem dimsLoop_tidy : ∀ f : File, readDimsLoop (tidies t f) = onRest t <$> readDimsLoop f
  | [] => rfl
  | l :: f => by
    simp only [tidies_cons, readDimsLoop, contains_tidy ((show IsTok cs!"F" by decide)), split_tidy]
    split
    · simp only [LineEnds.map_bind]
      rfl
    · exact dimsLoop_tidy f

theorem dims_tidy (f : File) : readDims (tidies t f) = onRest t <$> readDims f := by
  unfold readDims
  rw [goto_tidy (key (by decide)), LineEnds.bind_map, LineEnds.map_bind]
  exact bind_same fun ⟨l, f⟩ => dimsLoop_tidy (l :: f)

theorem pillarsLoop_tidy (size : Nat) : ∀ (f : File) (ps : List (Pillar D)) (o : Option (Pt D)),
    pillarsLoop size ps o (tidies t f) = onRest t <$> pillarsLoop size ps o f
  | [], _, none => rfl
  | [], _, some _ => rfl
  | l :: f, ps, some top => by
    simp only [tidies_cons, pillarsLoop, split_tidy, LineEnds.map_bind]
    refine bind_same fun b => ?_
    split
    · exact pillarsLoop_tidy size f _ none
    · rfl
  | l :: f, ps, none => by
    simp only [tidies_cons, pillarsLoop, split_tidy, starts_tidy (key (show IsTok cs!"/" by decide))]
    split
    · rfl
    · split
      · exact pillarsLoop_tidy size f ps none
      · split
        · simp only [LineEnds.map_bind]
          refine bind_same fun t => bind_same fun b => ?_
          split
          · exact pillarsLoop_tidy size f _ none
          · rfl
        · split
          · rw [LineEnds.map_bind]
            exact bind_same fun t => pillarsLoop_tidy size f ps (some t)
          · rfl

theorem pillars_tidy (nx ny : Nat) (f : File) : (readPillars nx ny (tidies t f) : Res (List (Pillar D) × File)) = onRest t <$> readPillars nx ny f := by
  unfold readPillars
  simp only
  rw [goto_tidy (key (by decide)), LineEnds.bind_map, LineEnds.map_bind]
  refine bind_same fun ⟨l, f⟩ => ?_
  simp only [onLine]
  rw [pillarsLoop_tidy, LineEnds.bind_map, LineEnds.map_bind]
  rfl

theorem depthsLoop_tidy (size : Nat) : ∀ (f : File) (ds : List D), depthsLoop size ds (tidies t f) = onRest t <$> depthsLoop size ds f
  | [], _ => rfl
  | l :: f, ds => by
    simp only [tidies_cons, depthsLoop, split_tidy, starts_tidy (key (show IsTok cs!"/" by decide))]
    split
    · rfl
    · rw [LineEnds.map_bind]
      exact bind_same fun ds => depthsLoop_tidy size f ds

theorem depths_tidy (nx ny nz : Nat) (f : File) : (readDepths nx ny nz (tidies t f) : Res (List (Option D))) = readDepths nx ny nz f := by
  unfold readDepths
  simp only
  rw [goto_tidy (key (by decide)), LineEnds.bind_map]
  refine bind_same fun ⟨l, f⟩ => ?_
  simp only [onLine]
  rw [depthsLoop_tidy, LineEnds.bind_map]
  rfl

end Grdecl

/-! ## Voxets -/

section Voxet

open Verif.Voxet Verif.Wells

theorem readSize_tidy (l : Str) : readSize (tidy t l) = readSize l := by
  unfold readSize
  rw [split_tidy]

theorem initGrid_tidy (g : Geo D) (name : Option Str) (f : File) : initGrid g name (tidies t f) = onRest t <$> initGrid g name f := by
  unfold initGrid
  rw [goto_tidy (key (by decide)), LineEnds.bind_map, LineEnds.map_bind]
  refine bind_same fun ⟨l, f⟩ => ?_
  simp only [onLine, wlCoord_tidy, LineEnds.map_bind]
  refine bind_same fun o => ?_
  rw [goto_tidy (key (by decide)), LineEnds.bind_map]
  refine bind_same fun ⟨l, f⟩ => ?_
  simp only [onLine, wlCoord_tidy]
  refine bind_same fun u => ?_
  rw [goto_tidy (key (by decide)), LineEnds.bind_map]
  refine bind_same fun ⟨l, f⟩ => ?_
  simp only [onLine, wlCoord_tidy]
  refine bind_same fun v => ?_
  rw [goto_tidy (key (by decide)), LineEnds.bind_map]
  refine bind_same fun ⟨l, f⟩ => ?_
  simp only [onLine, wlCoord_tidy]
  refine bind_same fun w => ?_
  rw [goto_tidy (key (by decide)), LineEnds.bind_map]
  refine bind_same fun ⟨l, f⟩ => ?_
  simp only [onLine, readSize_tidy]
  rfl

theorem getD_tidy (f : File) (i : Nat) : (tidies t f).getD i [] = tidy t (f.getD i []) := by
  unfold tidies
  rw [List.getD_eq_getElem?_getD, List.getD_eq_getElem?_getD, List.getElem?_map]
  cases f[i]? <;> simp [tidy_nil]

theorem dataLines_tidy (size : Ijk) (names : List Str) : ∀ (f : File) (cols : List (Str × List D)),
    Res.foldM' (dataLine size names) cols (tidies t f) = Res.foldM' (dataLine size names) cols f
  | [], _ => rfl
  | l :: f, cols => by
    have : dataLine size names cols (tidy t l) = dataLine size names cols l := by unfold dataLine; rw [split_tidy]
    rw [tidies_cons, Res.foldM'_cons, Res.foldM'_cons, this]
    exact bind_same fun cols => dataLines_tidy size names f cols

theorem readData_tidy (size : Ijk) (f : File) : (readData size (tidies t f) : Res (List (Str × List D))) = readData size f := by
  unfold readData
  rw [getD_tidy, split_tidy, show (tidies t f).drop 3 = tidies t (f.drop 3) from (List.map_drop ..).symm]
  simp only [dataLines_tidy]

end Voxet

end Verif.Spacing
