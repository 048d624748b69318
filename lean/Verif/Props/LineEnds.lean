import Mathlib.Data.List.Forall2
import Verif.Lemmas.LineEnds
import Verif.Props.Voxet
import Verif.Props.GrdeclIncludes
import Verif.Props.GocadBody
import Verif.Props.LsoCut
import Verif.Props.MlRefused
import Verif.Props.DevRefused

/-!
# Blanks at the ends of lines

Files written on Windows have a carriage return at the end of each line.  On other systems it is part of the lines read.
-/

namespace Verif.Props.LineEnds

open Verif Verif.Gocad Verif.GocadMesh Verif.LineEnds

variable {D : Type} [Num D]

/-- Two lines are the same but for the blanks at their ends. -/
def SameLine (l m : Str) : Prop := ∃ x a b, (∀ c ∈ a, isWs c = true) ∧ (∀ c ∈ b, isWs c = true) ∧ l = x ++ a ∧ m = x ++ b

/-- Two files have the same lines but for the blanks at their ends. -/
def SameLines (f g : File) : Prop := List.Forall₂ SameLine f g

theorem trimEnd_append (l : Str) : ∀ {a : Str}, (∀ c ∈ a, isWs c = true) → trimEnd (l ++ a) = trimEnd l := by
  intro a h
  induction a generalizing l with
  | nil => rw [List.append_nil]
  | cons c a ih =>
    rw [← List.singleton_append, ← List.append_assoc, ih _ fun d hd => h d (List.mem_cons_of_mem _ hd), trimEnd_concat (h c (List.mem_cons_self ..))]

theorem sameLines_trims {f g : File} (h : SameLines f g) : trims f = trims g := by
  induction h with
  | nil => rfl
  | cons h _ ih =>
    obtain ⟨x, a, b, ha, hb, rfl, rfl⟩ := h
    rw [trims_cons, trims_cons, ih, trimEnd_append _ ha, trimEnd_append _ hb]

/-- What is not changed by removing the blanks is the same for both files. -/
theorem of_trims {A : Type} {load : File → A} (h : ∀ f, load (trims f) = load f) {f g : File} (e : SameLines f g) : load f = load g := by
  rw [← h f, sameLines_trims e, h g]

/-- The lines of a file, each with a carriage return at its end. -/
def windows (f : File) : File := f.map (· ++ ['\r'])

theorem windows_same (f : File) : SameLines (windows f) f := by
  unfold windows SameLines
  induction f with
  | nil => exact .nil
  | cons l f ih => exact .cons ⟨l, ['\r'], [], by decide, by simp, rfl, by simp⟩ ih

/-! ## GOCAD meshes -/

theorem tsLoop_trim : ∀ (n : Nat) (m : Loaded Tri D) (f : File), loadTSLoop n m (trims f) = loadTSLoop n m f
  | 0, _, _ => rfl
  | n + 1, m, f => by
    simp only [loadTSLoop]
    rw [tsurf_trim, bind_map]
    refine bind_same fun o => ?_
    cases o with
    | none => rfl
    | some x => exact bind_same fun m => tsLoop_trim n m x.2

theorem vsLoop_trim : ∀ (n : Nat) (m : Loaded Empty D) (f : File), loadVSLoop n m (trims f) = loadVSLoop n m f
  | 0, _, _ => rfl
  | n + 1, m, f => by
    simp only [loadVSLoop]
    rw [vset_trim, bind_map]
    refine bind_same fun o => ?_
    cases o with
    | none => rfl
    | some x => exact bind_same fun m => vsLoop_trim n m x.2

theorem plLoop_trim : ∀ (n : Nat) (m : Loaded Edge D) (f : File), loadPLLoop n m (trims f) = loadPLLoop n m f
  | 0, _, _ => rfl
  | n + 1, m, f => by
    simp only [loadPLLoop]
    rw [curve_trim, bind_map]
    refine bind_same fun o => ?_
    cases o with
    | none => rfl
    | some x => exact bind_same fun m => plLoop_trim n m x.2

/-- Blanks at the ends of the lines do not change what is loaded from a `.ts`, `.vs` or `.pl` file. -/
theorem gocad_line_ends {f g : File} (h : SameLines f g) :
    (loadTS f : Res (Loaded Tri D)) = loadTS g ∧ (loadVS f : Res (Loaded Empty D)) = loadVS g ∧ (loadPL f : Res (Loaded Edge D)) = loadPL g := by
  refine ⟨of_trims (load := loadTS) (fun f => ?_) h, of_trims (load := loadVS) (fun f => ?_) h, of_trims (load := loadPL) (fun f => ?_) h⟩
  · unfold loadTS; rw [trims_length, tsLoop_trim]
  · unfold loadVS; rw [trims_length, vsLoop_trim]
  · unfold loadPL; rw [trims_length, plLoop_trim]

/-! ## Wells -/

section Wells

open Verif.Wells

theorem wlCoord_trim (l : Str) (n : Nat) : (wlCoord (trimEnd l) n : Res (Pt D)) = wlCoord l n := by
  unfold wlCoord
  rw [split_trim]

theorem coords_trim (f : File) : (Res.mapM' readCoord3 (trims f) : Res (List (Pt D))) = Res.mapM' readCoord3 f := by
  induction f with
  | nil => rfl
  | cons l f ih =>
    have : (readCoord3 (trimEnd l) : Res (Pt D)) = readCoord3 l := by unfold readCoord3; rw [split_trim]
    rw [trims_cons, Res.mapM'_cons, Res.mapM'_cons, this, ih]

theorem devHeaderLoop_trim : ∀ (f : File) (h : DevHeader) (first : Bool), devHeaderLoop h first (trims f) = onRest <$> devHeaderLoop h first f
  | [], _, _ => rfl
  | l :: f, h, first => by
    simp only [trims_cons, devHeaderLoop, starts_trim (show Ends cs!"#===" by decide), starts_trim (show Ends cs!"# WELL NAME:" by decide), split_trim]
    split
    · split
      · exact devHeaderLoop_trim f h false
      · rfl
    · split
      · rw [map_bind]
        exact bind_same fun n => devHeaderLoop_trim f _ first
      · split
        · exact devHeaderLoop_trim f h first
        · rw [map_bind]
          refine bind_same fun _ => ?_
          rw [map_bind]
          exact bind_same fun _ => devHeaderLoop_trim f _ first

theorem rows_trim (h : DevHeader) (f : File) : (Res.mapM' (devRow h) (trims f) : Res (List (Pt D × List (Str × D)))) = Res.mapM' (devRow h) f := by
  induction f with
  | nil => rfl
  | cons l f ih =>
    have : (devRow h (trimEnd l) : Res (Pt D × List (Str × D))) = devRow h l := by unfold devRow; rw [split_trim]
    rw [trims_cons, Res.mapM'_cons, Res.mapM'_cons, this, ih]

theorem paths_trim [Add D] (z : Bool) (ref : Pt D) : ∀ (f : File) (ps : List (Pt D)), wlPaths z ref ps (trims f) = wlPaths z ref ps f
  | [], _ => rfl
  | l :: f, ps => by
    simp only [trims_cons, wlPaths, starts_trim (show Ends cs!"PATH" by decide), wlCoord_trim]
    split
    · exact bind_same fun t => paths_trim z ref f _
    · rfl

/-- The same for wells: lists of points, deviation surveys and GOCAD wells. -/
theorem well_line_ends [Add D] {f g : File} (h : SameLines f g) :
    (loadList f : Res (Well D)) = loadList g ∧ (loadDev f : Res (Well D)) = loadDev g ∧ (loadWl f : Res (Well D)) = loadWl g := by
  refine ⟨of_trims (load := loadList) (fun f => ?_) h, of_trims (load := loadDev) (fun f => ?_) h, of_trims (load := loadWl) (fun f => ?_) h⟩
  · unfold loadList; rw [coords_trim]
  · unfold loadDev devHeader
    rw [check_trim (by decide), bind_map]
    simp only [Res.bind_assoc']
    refine bind_same fun f => ?_
    rw [devHeaderLoop_trim, bind_map]
    refine bind_same fun ⟨h, f⟩ => ?_
    simp only [onRest, rows_trim]
  · unfold loadWl
    rw [goto?_trim (by decide)]
    cases gotoKeyword? cs!"GOCAD Well" f with
    | none => rfl
    | some x =>
      obtain ⟨l, f⟩ := x
      simp only [Option.map_some, onLine]
      rw [header_trim, bind_map]
      refine bind_same fun ⟨name, f⟩ => ?_
      simp only [onRest]
      rw [crs_trim, bind_map]
      refine bind_same fun ⟨crs, f⟩ => ?_
      simp only [onRest]
      rw [goto_trim (by decide), bind_map]
      refine bind_same fun ⟨l, f⟩ => ?_
      simp only [onLine, wlCoord_trim]
      refine bind_same fun p => ?_
      rw [goto_trim (by decide), bind_map]
      refine bind_same fun ⟨l, f⟩ => ?_
      simp only [onLine, paths_trim]

end Wells

/-! ## Structural models -/

section Ml

open Verif.Ml

theorem step_trim (s : RState × Mode) (l : Str) : step s (trimEnd l) = step s l := by
  obtain ⟨st, m⟩ := s
  cases m <;> simp only [step, topLine, split_trim]

theorem lines_trim : ∀ (f : File) (s : RState × Mode), readLines s (trims f) = onRest <$> readLines s f
  | [], (st, m) => by cases m <;> rfl
  | l :: f, (st, m) => by
    simp only [trims_cons, readLines, starts_trim (show Ends cs!"END" by decide), step_trim]
    split
    · rfl
    · rw [map_bind]
      exact bind_same fun s => lines_trim f s

theorem mlSurfaces_trim : ∀ (ts : List RTsurf) (f : File), (readSurfaces ts (trims f) : Res (List (Nat × List (Pt D) × List Tri))) = readSurfaces ts f
  | [], _ => rfl
  | t :: ts, f => by
    simp only [readSurfaces]
    rw [tsurf_trim, bind_map]
    refine bind_same fun o => ?_
    cases o with
    | none => rfl
    | some x =>
      refine bind_same fun faces => ?_
      simp only [onRest, mlSurfaces_trim ts x.2]

theorem data_trim : ∀ (ts : List RTsurf) (f : File), (readData ts (trims f) : Res (List (TSurf D × List Nat))) = readData ts f
  | [], _ => rfl
  | t :: ts, f => by
    simp only [readData]
    rw [tsurf_trim, bind_map]
    refine bind_same fun o => ?_
    cases o with
    | none => rfl
    | some x => simp only [Option.map_some, onRest, data_trim ts x.2]

theorem ml_trim (f : File) : (loadMl (trims f) : Res (Ml.Loaded D)) = loadMl f := by
  unfold loadMl
  rw [goto_trim (by decide), bind_map]
  refine bind_same fun ⟨l, f⟩ => ?_
  simp only [onLine]
  rw [header_trim, bind_map]
  refine bind_same fun ⟨name, f⟩ => ?_
  simp only [onRest]
  rw [crs_trim, bind_map]
  refine bind_same fun ⟨crs, f⟩ => ?_
  simp only [onRest]
  rw [lines_trim, bind_map]
  refine bind_same fun ⟨st, f⟩ => ?_
  simp only [onRest, mlSurfaces_trim]

theorem corners_trim (f : File) : (loadCorners (trims f) : Res (List (Pt D × Nat × Nat) × List (Nat × Nat × Nat))) = loadCorners f := by
  unfold loadCorners
  rw [goto_trim (by decide), bind_map]
  refine bind_same fun ⟨l, f⟩ => ?_
  simp only [onLine]
  rw [header_trim, bind_map]
  refine bind_same fun ⟨name, f⟩ => ?_
  simp only [onRest]
  rw [crs_trim, bind_map]
  refine bind_same fun ⟨crs, f⟩ => ?_
  simp only [onRest]
  rw [lines_trim, bind_map]
  refine bind_same fun ⟨st, f⟩ => ?_
  simp only [onRest, data_trim]

/-- The same for the models of `.ml` files, with their corners and lines. -/
theorem ml_line_ends (lib : MlWhole.Library D) {f g : File} (h : SameLines f g) : MlWhole.loadWhole lib f = MlWhole.loadWhole lib g :=
  of_trims (load := MlWhole.loadWhole lib) (fun f => by unfold MlWhole.loadWhole; rw [ml_trim, corners_trim]) h

end Ml

section Lso

open Verif.Lso

/-- A result with a line and the lines after it. -/
def onLine3 {A : Type} (x : A × Str × File) : A × Str × File := (x.1, trimEnd x.2.1, trims x.2.2)

theorem nextLine_trim (f : File) : nextLine (trims f) = onLine (nextLine f) := by cases f <;> rfl

theorem vertex_trim (z : Bool) (es : List Nat) (s : Solid D) (l : Str) : readVertex z es s (trimEnd l) = readVertex z es s l := by
  unfold readVertex
  simp only [split_trim, starts_trim (show Ends cs!"SHARED" by decide)]

theorem verticesLoop_trim (z : Bool) (es : List Nat) : ∀ (f : File) (s : Solid D), readVerticesLoop z es s (trims f) = onLine3 <$> readVerticesLoop z es s f
  | [], _ => rfl
  | l :: f, s => by
    simp only [trims_cons, readVerticesLoop, contains_trim (show Ends cs!"VRTX" by decide), vertex_trim]
    split
    · rw [map_bind]
      exact bind_same fun s => verticesLoop_trim z es f s
    · rfl

theorem vertices_trim (z : Bool) (es : List Nat) (s : Solid D) (f : File) : readVertices z es s (trims f) = onLine3 <$> readVertices z es s f := by
  unfold readVertices
  rw [gotos_trim (by decide), bind_map, map_bind]
  refine bind_same fun ⟨l, f⟩ => ?_
  simp only [onLine, vertex_trim, map_bind]
  exact bind_same fun s => verticesLoop_trim z es f s

theorem skip_trim (kind l : Str) (f : File) : skipSection kind (trimEnd l) (trims f) = onLine <$> skipSection kind l f := by
  unfold skipSection
  rw [starts_trim (Ends.append (by decide))]
  split
  · rw [goto_trim (Ends.append (by decide)), bind_map, map_bind]
    refine bind_same fun ⟨l, f⟩ => ?_
    simp only [onLine, nextLine_trim]
    rfl
  · rfl

theorem tetra_trim (es : List Nat) (s : Solid D) (l l2 : Str) : readTetra es s (trimEnd l) (trimEnd l2) = readTetra es s l l2 := by
  unfold readTetra
  simp only [split_trim]

theorem tetras_trim (es : List Nat) : ∀ (f : File) (s : Solid D) (l : Str), readTetras es s (trimEnd l) (trims f) = onLine3 <$> readTetras es s l f
  | [], s, l => by
    have := tetra_trim es s l []
    rw [show trimEnd [] = [] from rfl] at this
    simp only [trims_nil, readTetras, this, map_bind]
    rfl
  | [l2], s, l => by
    simp only [trims_cons, trims_nil, readTetras, tetra_trim, map_bind]
    rfl
  | l2 :: l3 :: f, s, l => by
    simp only [trims_cons, readTetras, tetra_trim, map_bind, starts_trim (show Ends cs!"TETRA" by decide)]
    refine bind_same fun s => ?_
    split
    · exact tetras_trim es f s l3
    · rfl

theorem triangle_trim (s : Solid D) (st : RState) (l : Str) : readTriangle s st (trimEnd l) = readTriangle s st l := by
  unfold readTriangle
  rw [split_trim]

theorem surfaceLine_trim (st : RState) (l : Str) : surfaceLine st (trimEnd l) = surfaceLine st l := by
  unfold surfaceLine
  simp only [split_trim, starts_trim (show Ends cs!"SURFACE" by decide)]

theorem faceLine_trim (st : RState) (l : Str) : faceLine st (trimEnd l) = faceLine st l := by
  unfold faceLine
  simp only [surfaceLine_trim, starts_trim (show Ends cs!"TFACE" by decide)]

theorem surfacesStep_trim (s : Solid D) (x : RState × Mode) (l : Str) : surfacesStep s x (trimEnd l) = surfacesStep s x l := by
  obtain ⟨st, m⟩ := x
  cases m <;> simp only [surfacesStep, faceLine_trim, triangle_trim, starts_trim (show Ends cs!"TRGL" by decide)]

theorem surfacesLoop_trim (s : Solid D) : ∀ (f : File) (x : RState × Mode), readSurfacesLoop s x (trims f) = onLine3 <$> readSurfacesLoop s x f
  | [], (_, _) => rfl
  | l :: f, (st, m) => by
    simp only [trims_cons, readSurfacesLoop, surfacesStep_trim, map_bind]
    refine bind_same fun o => ?_
    cases o with
    | none => rfl
    | some r => exact surfacesLoop_trim s f r

theorem surfaces_trim (s : Solid D) (l : Str) (f : File) : readSurfaces s (trimEnd l) (trims f) = onLine3 <$> readSurfaces s l f := by
  have key : ∀ f : File, (match trims f with
      | [] => pure ({}, [], [])
      | l :: ls => do
        match ← surfaceLine {} l with
        | none => pure ({}, l, ls)
        | some r => readSurfacesLoop s r ls : Res (RState × Str × File)) = onLine3 <$> (match f with
      | [] => pure ({}, [], [])
      | l :: ls => do
        match ← surfaceLine {} l with
        | none => pure ({}, l, ls)
        | some r => readSurfacesLoop s r ls : Res (RState × Str × File)) := by
    intro f
    cases f with
    | nil => rfl
    | cons l f =>
      simp only [trims_cons, surfaceLine_trim, map_bind]
      refine bind_same fun o => ?_
      cases o with
      | none => rfl
      | some r => exact surfacesLoop_trim s f r
  unfold readSurfaces
  rw [starts_trim (by decide)]
  split
  · exact key f
  · rw [goto_trim (by decide)]
    simp only [bind_map, map_bind, Res.bind_assoc']
    refine bind_same fun ⟨l, f⟩ => ?_
    exact key f

theorem readBlock_trim (h : Headers D) (s : Solid D) (st : RState) (l : Str) : readBlock h s st (trimEnd l) = readBlock h s st l := by
  unfold readBlock
  rw [split_trim]

theorem blocks_trim (h : Headers D) (s : Solid D) (st : RState) : ∀ (f : File) (x : List (RBlock D) × Bool) (l : Str),
    readBlocks h s st x (trimEnd l) (trims f) = readBlocks h s st x l f
  | [], (bs, i), l => by simp only [trims_nil, readBlocks, starts_trim (show Ends cs!"MODEL_REGION" by decide), readBlock_trim]
  | l2 :: f, (bs, i), l => by
    simp only [trims_cons, readBlocks, starts_trim (show Ends cs!"MODEL_REGION" by decide), readBlock_trim]
    split
    · exact bind_same fun ⟨b, j⟩ => blocks_trim h s st f _ l2
    · rfl

theorem lso_trim (f : File) : (loadLso (trims f) : Res (Lso.Loaded D)) = loadLso f := by
  unfold loadLso
  rw [goto_trim (by decide), bind_map]
  refine bind_same fun ⟨l, f⟩ => ?_
  simp only [onLine]
  rw [header_trim, bind_map]
  refine bind_same fun ⟨name, f⟩ => ?_
  simp only [onRest]
  rw [crs_trim, bind_map]
  refine bind_same fun ⟨crs, f⟩ => ?_
  simp only [onRest]
  rw [props_trim, bind_map]
  refine bind_same fun ⟨vh, f⟩ => ?_
  simp only [onRest]
  rw [props_trim, bind_map]
  refine bind_same fun ⟨th, f⟩ => ?_
  simp only [onRest]
  rw [vertices_trim, bind_map]
  refine bind_same fun ⟨s, l, f⟩ => ?_
  simp only [onLine3]
  rw [skip_trim, bind_map]
  refine bind_same fun ⟨l, f⟩ => ?_
  simp only [onLine]
  rw [tetras_trim, bind_map]
  refine bind_same fun ⟨s, l, f⟩ => ?_
  simp only [onLine3]
  rw [skip_trim, bind_map]
  refine bind_same fun ⟨l, f⟩ => ?_
  simp only [onLine]
  rw [surfaces_trim, bind_map]
  refine bind_same fun ⟨st, l, f⟩ => ?_
  simp only [onLine3, blocks_trim]

/-- The same for the models of `.lso` files, with their corners and lines, and for the stratigraphic models. -/
theorem lso_line_ends (mesh : RSurface → LsoLines.Border) {f g : File} (h : SameLines f g) :
    (LsoWhole.loadModel mesh f : Res (LsoWhole.Whole D)) = LsoWhole.loadModel mesh g ∧
    (StratiLso.loadStrati f : Res (Lso.Loaded D × List (List (Pt D)))) = StratiLso.loadStrati g :=
  ⟨of_trims (load := LsoWhole.loadModel mesh) (fun f => by unfold LsoWhole.loadModel; rw [lso_trim]) h,
    of_trims (load := StratiLso.loadStrati) (fun f => by unfold StratiLso.loadStrati; rw [lso_trim]) h⟩

end Lso

/-! ## Corner point grids -/

section Grdecl

open Verif.Grdecl

theorem splitOn_end {c d : Char} (h : d ≠ c) (l : Str) : ∃ ps p, splitOn c l = ps ++ [p] ∧ splitOn c (l ++ [d]) = ps ++ [p ++ [d]] ∧ (c ∈ l → ps ≠ []) := by
  induction l with
  | nil => exact ⟨[], [], rfl, by simp [splitOn, h], by simp⟩
  | cons a l ih =>
    obtain ⟨ps, p, e, e', hc⟩ := ih
    simp only [List.cons_append, splitOn]
    split
    · exact ⟨[] :: ps, p, by rw [e]; rfl, by rw [e']; rfl, by simp⟩
    · rename_i ha
      rw [e, e']
      cases ps with
      | nil => exact ⟨[], a :: p, rfl, rfl, fun hm => absurd rfl (hc ((List.mem_cons.1 hm).resolve_left fun h => ha h.symm))⟩
      | cons q ps => exact ⟨(a :: q) :: ps, p, rfl, rfl, by simp⟩

theorem includeKey_end (l : Str) {d : Char} (hd : isWs d = true) : includeKey (l ++ [d]) = includeKey l := by
  unfold includeKey
  rw [contains_end (by decide) l hd]
  split
  · rename_i h
    have hne : d ≠ '.' := by rintro rfl; revert hd; decide
    obtain ⟨ps, p, e, e', hc⟩ := splitOn_end hne l
    rw [e, e']
    have := hc (GrdeclIncludes.contains_char.1 h)
    cases ps with
    | nil => exact absurd rfl this
    | cons q ps => rfl
  · rfl

theorem includeLine_trim (l : Str) : includeLine (trimEnd l) = includeLine l := by
  refine trim_same includeLine (fun l d hd => ?_) l
  have hne : d ≠ '_' := by rintro rfl; revert hd; decide
  obtain ⟨ps, p, e, e', -⟩ := splitOn_end hne l
  unfold includeLine
  rw [split_end l hd, e, e', List.filterMap_append, List.filterMap_append]
  simp only [List.filterMap_cons, List.filterMap_nil, includeKey_end p hd]

theorem includesLoop_trim : ∀ (f : File) (b : Bool), includesLoop b (trims f) = includesLoop b f
  | [], b => by cases b <;> rfl
  | l :: f, true => by simp only [trims_cons, includesLoop, includeLine_trim, includesLoop_trim f]
  | l :: f, false => by simp only [trims_cons, includesLoop, starts_trim (show Ends cs!"INCLUDE" by decide), includesLoop_trim f]

theorem dimsLoop_trim : ∀ f : File, readDimsLoop (trims f) = onRest <$> readDimsLoop f
  | [] => rfl
  | l :: f => by
    simp only [trims_cons, readDimsLoop, contains_trim (show Ends cs!"F" by decide), split_trim]
    split
    · simp only [map_bind]
      rfl
    · exact dimsLoop_trim f

theorem dims_trim (f : File) : readDims (trims f) = onRest <$> readDims f := by
  unfold readDims
  rw [goto_trim (by decide), bind_map, map_bind]
  exact bind_same fun ⟨l, f⟩ => dimsLoop_trim (l :: f)

theorem pillarsLoop_trim (size : Nat) : ∀ (f : File) (ps : List (Pillar D)) (o : Option (Pt D)),
    pillarsLoop size ps o (trims f) = onRest <$> pillarsLoop size ps o f
  | [], _, none => rfl
  | [], _, some _ => rfl
  | l :: f, ps, some top => by
    simp only [trims_cons, pillarsLoop, split_trim, map_bind]
    refine bind_same fun b => ?_
    split
    · exact pillarsLoop_trim size f _ none
    · rfl
  | l :: f, ps, none => by
    simp only [trims_cons, pillarsLoop, split_trim, starts_trim (show Ends cs!"/" by decide)]
    split
    · rfl
    · split
      · exact pillarsLoop_trim size f ps none
      · split
        · simp only [map_bind]
          refine bind_same fun t => bind_same fun b => ?_
          split
          · exact pillarsLoop_trim size f _ none
          · rfl
        · split
          · rw [map_bind]
            exact bind_same fun t => pillarsLoop_trim size f ps (some t)
          · rfl

theorem pillars_trim (nx ny : Nat) (f : File) : (readPillars nx ny (trims f) : Res (List (Pillar D) × File)) = onRest <$> readPillars nx ny f := by
  unfold readPillars
  simp only
  rw [goto_trim (by decide), bind_map, map_bind]
  refine bind_same fun ⟨l, f⟩ => ?_
  simp only [onLine]
  rw [pillarsLoop_trim, bind_map, map_bind]
  rfl

theorem depthsLoop_trim (size : Nat) : ∀ (f : File) (ds : List D), depthsLoop size ds (trims f) = onRest <$> depthsLoop size ds f
  | [], _ => rfl
  | l :: f, ds => by
    simp only [trims_cons, depthsLoop, split_trim, starts_trim (show Ends cs!"/" by decide)]
    split
    · rfl
    · rw [map_bind]
      exact bind_same fun ds => depthsLoop_trim size f ds

theorem depths_trim (nx ny nz : Nat) (f : File) : (readDepths nx ny nz (trims f) : Res (List (Option D))) = readDepths nx ny nz f := by
  unfold readDepths
  simp only
  rw [goto_trim (by decide), bind_map]
  refine bind_same fun ⟨l, f⟩ => ?_
  simp only [onLine]
  rw [depthsLoop_trim, bind_map]
  rfl

theorem getD_trims (o : Option File) : (o.map trims).getD [] = trims (o.getD []) := by cases o <;> rfl

variable [Add D] [Sub D] [Mul D] [Div D] [One D]

theorem grdecl_trim (merge : List (Pt D) → List (Pt D) × List Nat) (fs : Str → Option File) (f : File) :
    load merge (fun n => (fs n).map trims) (trims f) = load merge fs f := by
  unfold load
  rw [dims_trim, bind_map]
  refine bind_same fun ⟨⟨nx, ny, nz⟩, after⟩ => ?_
  simp only [onRest, includesLoop_trim, getD_trims]
  refine bind_same fun inc => ?_
  have tail : ∀ rest : File,
      (match fileOf inc cs!"ZCORN" with
        | some n => readDepths nx ny nz (trims ((fs n).getD []))
        | none => readDepths nx ny nz (trims rest) : Res (List (Option D))) =
      (match fileOf inc cs!"ZCORN" with
        | some n => readDepths nx ny nz ((fs n).getD [])
        | none => readDepths nx ny nz rest) := by
    intro rest
    cases fileOf inc cs!"ZCORN" <;> exact depths_trim ..
  cases fileOf inc cs!"COORD" with
  | none =>
    simp only
    rw [pillars_trim, bind_map]
    refine bind_same fun ⟨ps, rest⟩ => ?_
    simp only [onRest]
    exact congrArg (· >>= _) (tail rest)
  | some n =>
    simp only
    rw [pillars_trim]
    simp only [bind_map, Res.bind_assoc']
    refine bind_same fun ⟨ps, rest⟩ => ?_
    exact congrArg (· >>= _) (tail f)

/-- Two folders have the same files, but for the blanks at the ends of their lines. -/
def SameFiles (fs gs : Str → Option File) : Prop := ∀ n, match fs n, gs n with
  | none, none => True
  | some f, some g => SameLines f g
  | _, _ => False

theorem sameFiles_trims {fs gs : Str → Option File} (h : SameFiles fs gs) : (fun n => (fs n).map trims) = fun n => (gs n).map trims := by
  funext n
  have := h n
  revert this
  cases fs n <;> cases gs n <;> simp
  exact sameLines_trims

/-- The same for corner point grids and the files they include. -/
theorem grdecl_line_ends (merge : List (Pt D) → List (Pt D) × List Nat) {fs gs : Str → Option File} {f g : File} (hs : SameFiles fs gs) (h : SameLines f g) :
    load merge fs f = load merge gs g := by
  rw [← grdecl_trim, sameFiles_trims hs, sameLines_trims h, grdecl_trim]

end Grdecl

/-! ## Voxets -/

section Voxet

open Verif.Voxet Verif.Wells

theorem readSize_trim (l : Str) : readSize (trimEnd l) = readSize l := by
  unfold readSize
  rw [split_trim]

theorem initGrid_trim (g : Geo D) (name : Option Str) (f : File) : initGrid g name (trims f) = onRest <$> initGrid g name f := by
  unfold initGrid
  rw [goto_trim (by decide), bind_map, map_bind]
  refine bind_same fun ⟨l, f⟩ => ?_
  simp only [onLine, wlCoord_trim, map_bind]
  refine bind_same fun o => ?_
  rw [goto_trim (by decide), bind_map]
  refine bind_same fun ⟨l, f⟩ => ?_
  simp only [onLine, wlCoord_trim]
  refine bind_same fun u => ?_
  rw [goto_trim (by decide), bind_map]
  refine bind_same fun ⟨l, f⟩ => ?_
  simp only [onLine, wlCoord_trim]
  refine bind_same fun v => ?_
  rw [goto_trim (by decide), bind_map]
  refine bind_same fun ⟨l, f⟩ => ?_
  simp only [onLine, wlCoord_trim]
  refine bind_same fun w => ?_
  rw [goto_trim (by decide), bind_map]
  refine bind_same fun ⟨l, f⟩ => ?_
  simp only [onLine, readSize_trim]
  rfl

/-- The part of the head that is read before the record of the data file. -/
def gridHead (g : Geo D) (f : File) : Res (Grid D × File) :=
  match gotoKeyword? cs!"GOCAD Voxet" f with
  | none => .throw
  | some (_, f) => do
    let (name, f) ← readHeader f
    let (_, f) ← readCrs f
    initGrid g name f

theorem loadHead_eq (g : Geo D) (folder : Str) (f : File) :
    loadHead g folder f = gridHead g f >>= fun r => Res.ofParse (dataFile r.2) >>= fun record => pure (r.1, folder ++ stripCr record) := by
  unfold loadHead gridHead
  cases gotoKeyword? cs!"GOCAD Voxet" f with
  | none => rfl
  | some x => simp only [Res.bind_assoc']

theorem gridHead_trim (g : Geo D) (f : File) : gridHead g (trims f) = onRest <$> gridHead g f := by
  unfold gridHead
  rw [goto?_trim (by decide)]
  cases gotoKeyword? cs!"GOCAD Voxet" f with
  | none => rfl
  | some x =>
    obtain ⟨l, f⟩ := x
    simp only [Option.map_some, onLine]
    rw [header_trim, bind_map, map_bind]
    refine bind_same fun ⟨name, f⟩ => ?_
    simp only [onRest]
    rw [crs_trim, bind_map, map_bind]
    exact bind_same fun ⟨_, f⟩ => initGrid_trim g name f

theorem gridHead_suffix {g : Geo D} {f : File} {r : Grid D × File} (h : gridHead g f = .ok r) : ∃ u, f = u ++ r.2 := by
  unfold gridHead at h
  cases hg : gotoKeyword? cs!"GOCAD Voxet" f with
  | none => rw [hg] at h; simp at h
  | some x =>
    obtain ⟨l0, f0⟩ := x
    rw [hg] at h
    simp only [Res.bind_eq_ok] at h
    obtain ⟨⟨name, f1⟩, h1, ⟨_, f2⟩, h2, h3⟩ := h
    obtain ⟨pre, e0, -⟩ := GocadTruncated.gotoKeyword?_some hg
    obtain ⟨u1, e1⟩ := GocadCut.readHeader_cut.suffix h1
    obtain ⟨u2, e2⟩ := GocadCut.readCrs_cut.suffix h2
    obtain ⟨u3, e3⟩ := Props.Voxet.initGrid_suffix h3
    exact ⟨pre ++ l0 :: (u1 ++ (u2 ++ u3)), by simp only at e1 e2 e3; simp [e0, e1, e2, e3]⟩

/-- `f` is `g`, that has no carriage return, with a carriage return at the ends of some lines. -/
def SomeReturns (f g : File) : Prop := List.Forall₂ (fun l m => '\r' ∉ m ∧ (l = m ∨ l = m ++ ['\r'])) f g

theorem someReturns_same {f g : File} (h : SomeReturns f g) : SameLines f g := by
  refine List.Forall₂.imp (fun l m h => ?_) h
  obtain ⟨-, rfl | rfl⟩ := h
  · exact ⟨l, [], [], by simp, by simp, by simp, by simp⟩
  · exact ⟨m, ['\r'], [], by decide, by simp, rfl, by simp⟩

theorem unrecord_return : ∀ (s : Str) (k : Nat), k ≤ s.length → unrecord k (s ++ ['\r']) = unrecord k s ++ ['\r']
  | [], k, h => by
    obtain rfl : k = 0 := Nat.le_zero.1 h
    decide
  | c :: s, k + 1, h => unrecord_return s k (Nat.le_of_succ_le_succ h)
  | c :: s, 0, h => by
    have hp : startsWith ((c :: s) ++ ['\r']) cs!"ASCII_DATA_FILE " = startsWith (c :: s) cs!"ASCII_DATA_FILE " := by
      unfold startsWith
      rw [Bool.eq_iff_iff, List.isPrefixOf_iff_prefix, List.isPrefixOf_iff_prefix]
      constructor
      · rintro ⟨t, e⟩
        rcases List.eq_nil_or_concat t with rfl | ⟨t, a, rfl⟩
        · rw [List.append_nil] at e
          have := congrArg List.getLast? e
          rw [List.getLast?_append] at this
          simp at this
        · rw [List.concat_eq_append, ← List.append_assoc] at e
          exact ⟨t, (List.append_inj' e rfl).1⟩
      · rintro ⟨t, e⟩
        exact ⟨t ++ ['\r'], by rw [← e, List.append_assoc]⟩
    rw [List.cons_append] at hp
    simp only [List.cons_append, unrecord, hp]
    split
    · rename_i hs
      refine unrecord_return s 15 ?_
      have := (List.isPrefixOf_iff_prefix.1 hs).length_le
      simp only [List.length_cons] at this
      exact Nat.le_of_succ_le_succ this
    · split
      · exact unrecord_return s 0 (Nat.zero_le _)
      · rw [unrecord_return s 0 (Nat.zero_le _)]; rfl

theorem dataFile_returns {f g : File} (h : SomeReturns f g) : (dataFile f).map stripCr = (dataFile g).map stripCr := by
  induction h with
  | nil => rfl
  | @cons l m f g h _ ih =>
    obtain ⟨hm, h⟩ := h
    have hs : startsWith l cs!"ASCII_DATA_FILE" = startsWith m cs!"ASCII_DATA_FILE" := by
      rcases h with rfl | rfl
      · rfl
      · exact prefix_end (by decide) (by decide)
    unfold dataFile at ih ⊢
    simp only [gotoKeyword?, hs]
    split
    · rcases h with rfl | rfl
      · rfl
      · simp only [Option.map_some, Option.some.injEq]
        rw [unrecord_return m 0 (Nat.zero_le _), Props.Voxet.stripCr_id fun hr => hm (Props.Voxet.unrecord_subset 0 m _ hr)]
        simp [stripCr]
    · exact ih

theorem loadHead_returns (geo : Geo D) (folder : Str) {f g : File} (h : SomeReturns f g) : loadHead geo folder f = loadHead geo folder g := by
  have e : onRest <$> gridHead geo f = onRest <$> gridHead geo g := by
    rw [← gridHead_trim, ← gridHead_trim, sameLines_trims (someReturns_same h)]
  rw [loadHead_eq, loadHead_eq]
  cases hf : gridHead geo f <;> cases hg : gridHead geo g <;> rw [hf, hg] at e <;> first | rfl | (exact absurd e (by rintro ⟨⟩)) | skip
  rename_i a b
  have e : onRest a = onRest b := Res.ok.inj e
  obtain ⟨a, r⟩ := a
  obtain ⟨b, r'⟩ := b
  simp only [onRest, Prod.mk.injEq] at e
  obtain ⟨rfl, er⟩ := e
  obtain ⟨u, hu⟩ := gridHead_suffix hf
  obtain ⟨v, hv⟩ := gridHead_suffix hg
  simp only at hu hv
  have hl : r.length = r'.length := by rw [← trims_length r, er, trims_length]
  have hfg : f.length = g.length := List.Forall₂.length_eq h
  have huv : u.length = v.length := by
    rw [hu, hv, List.length_append, List.length_append] at hfg
    omega
  have hr : SomeReturns r r' := by
    have := List.forall₂_drop u.length h
    rwa [hu, List.drop_left, hv, huv, List.drop_left] at this
  have hd := dataFile_returns hr
  simp only [Res.ok_bind]
  cases h1 : dataFile r <;> cases h2 : dataFile r' <;> rw [h1, h2] at hd <;> simp at hd ⊢
  rw [hd]

theorem getD_trim (f : File) (i : Nat) : (trims f).getD i [] = trimEnd (f.getD i []) := by
  unfold trims
  rw [List.getD_eq_getElem?_getD, List.getD_eq_getElem?_getD, List.getElem?_map]
  cases f[i]? <;> rfl

theorem dataLines_trim (size : Ijk) (names : List Str) : ∀ (f : File) (cols : List (Str × List D)),
    Res.foldM' (dataLine size names) cols (trims f) = Res.foldM' (dataLine size names) cols f
  | [], _ => rfl
  | l :: f, cols => by
    have : dataLine size names cols (trimEnd l) = dataLine size names cols l := by unfold dataLine; rw [split_trim]
    rw [trims_cons, Res.foldM'_cons, Res.foldM'_cons, this]
    exact bind_same fun cols => dataLines_trim size names f cols

theorem readData_trim (size : Ijk) (f : File) : (readData size (trims f) : Res (List (Str × List D))) = readData size f := by
  unfold readData
  rw [getD_trim, split_trim, show (trims f).drop 3 = trims (f.drop 3) from (List.map_drop ..).symm]
  simp only [dataLines_trim]

/-- The same for Voxets, with carriage returns in the header file, and any blanks in the data file. -/
theorem voxet_line_ends (geo : Geo D) (folder : Str) {fs gs : Str → Option File} {f g : File} (hs : SameFiles fs gs) (h : SomeReturns f g) :
    load geo fs folder f = load geo gs folder g := by
  unfold load
  rw [loadHead_returns geo folder h]
  refine bind_same fun ⟨grid, path⟩ => ?_
  have := congrFun (sameFiles_trims hs) path
  simp only at this ⊢
  cases h1 : fs path <;> cases h2 : gs path <;> rw [h1, h2] at this <;> simp at this
  · simp only [Res.ofParse_some, Res.ok_bind]
    rw [← readData_trim, this, readData_trim]

/-- **C184 fails for Voxets.**  A blank after the name of the data file is taken as part of the name: the file is not found. -/
theorem voxet_blank : ∃ (fs : Str → Option File) (f g : File), SameLines f g ∧ (∃ r, load Props.Voxet.geoZ fs [] g = .ok r) ∧ load Props.Voxet.geoZ fs [] f = .throw := by
  refine ⟨fun p => if p = cs!"v@@" then some Props.Voxet.voData else none, Props.Voxet.voFile.map (· ++ [' ']), Props.Voxet.voFile, ?_, ?_, by decide +kernel⟩
  · unfold SameLines
    generalize Props.Voxet.voFile = f
    induction f with
    | nil => exact .nil
    | cons l f ih => exact .cons ⟨l, [' '], [], by decide, by simp, rfl, by simp⟩ ih
  · cases h : load Props.Voxet.geoZ (fun p => if p = cs!"v@@" then some Props.Voxet.voData else none) [] Props.Voxet.voFile with
    | ok r => exact ⟨r, rfl⟩
    | throw => exact absurd h (by decide +kernel)
    | ub => exact absurd h (by decide +kernel)
    | diverge => exact absurd h (by decide +kernel)

end Voxet

/-! ## Recognition -/

section Recognise

open Verif.Recognise

theorem has_same {k : Str} (hk : Ends k) {f g : File} (h : SameLines f g) : hasKeyword k f = hasKeyword k g :=
  of_trims (load := hasKeyword k) (fun f => by unfold hasKeyword; rw [goto?_trim hk, Option.isSome_map]) h

/-- Blanks at the ends of the lines do not change for which formats a file is recognised. -/
theorem recognised_line_ends {f g : File} (h : SameLines f g) : isLoadableTS f = isLoadableTS g ∧ isLoadableVS f = isLoadableVS g ∧ isLoadablePL f = isLoadablePL g ∧
    isLoadableWl f = isLoadableWl g ∧ isLoadableDev f = isLoadableDev g ∧ isLoadableVo f = isLoadableVo g ∧ isLoadableGrdecl f = isLoadableGrdecl g ∧
    isLoadableMl f = isLoadableMl g ∧ isLoadableLso f = isLoadableLso g :=
  ⟨has_same (by decide) h, has_same (by decide) h, has_same (by decide) h, has_same (by decide) h, has_same (by decide) h, has_same (by decide) h,
    has_same (by decide) h, has_same (by decide) h, has_same (by decide) h⟩

end Recognise

/-! ## Files of Windows -/

theorem windows_files (fs : Str → Option File) : SameFiles (fun n => (fs n).map windows) fs := by
  intro n
  show match (fs n).map windows, fs n with
    | none, none => True
    | some f, some g => SameLines f g
    | _, _ => False
  cases fs n with
  | none => trivial
  | some f => exact windows_same f

theorem windows_returns {f : File} (h : ∀ l ∈ f, '\r' ∉ l) : SomeReturns (windows f) f := by
  unfold windows SomeReturns
  induction f with
  | nil => exact .nil
  | cons l f ih => exact .cons ⟨h l (List.mem_cons_self ..), Or.inr rfl⟩ (ih fun m hm => h m (List.mem_cons_of_mem _ hm))

/-- **C183** for the formats of one file: a carriage return at the end of each line does not change what is loaded. -/
theorem windows_loaded [Add D] (lib : MlWhole.Library D) (mesh : Lso.RSurface → LsoLines.Border) (f : File) :
    ((loadTS (windows f) : Res (Loaded Tri D)) = loadTS f ∧ (loadVS (windows f) : Res (Loaded Empty D)) = loadVS f ∧
      (loadPL (windows f) : Res (Loaded Edge D)) = loadPL f) ∧
    ((Wells.loadList (windows f) : Res (Wells.Well D)) = Wells.loadList f ∧ (Wells.loadDev (windows f) : Res (Wells.Well D)) = Wells.loadDev f ∧
      (Wells.loadWl (windows f) : Res (Wells.Well D)) = Wells.loadWl f) ∧
    MlWhole.loadWhole lib (windows f) = MlWhole.loadWhole lib f ∧
    (LsoWhole.loadModel mesh (windows f) : Res (LsoWhole.Whole D)) = LsoWhole.loadModel mesh f ∧
    (StratiLso.loadStrati (windows f) : Res (Lso.Loaded D × List (List (Pt D)))) = StratiLso.loadStrati f :=
  ⟨gocad_line_ends (windows_same f), well_line_ends (windows_same f), ml_line_ends lib (windows_same f), lso_line_ends mesh (windows_same f)⟩

/-- **C183** for corner point grids and Voxets, whose other files are of Windows as well. -/
theorem windows_grids [Add D] [Sub D] [Mul D] [Div D] [One D] (merge : List (Pt D) → List (Pt D) × List Nat) (geo : Voxet.Geo D) (folder : Str)
    (fs : Str → Option File) (f : File) :
    Grdecl.load merge (fun n => (fs n).map windows) (windows f) = Grdecl.load merge fs f ∧
    ((∀ l ∈ f, '\r' ∉ l) → Voxet.load geo (fun n => (fs n).map windows) folder (windows f) = Voxet.load geo fs folder f) :=
  ⟨grdecl_line_ends merge (windows_files fs) (windows_same f), fun h => voxet_line_ends geo folder (windows_files fs) (windows_returns h)⟩

/-! Tests: files of Windows that are loaded. -/

example : (loadTS (windows (GocadBody.fileTS true 1 none [cs!"p"] (.vrtx ⟨0, 0, 0⟩ [4] :: GocadBody.sampleRecs))) : Res (Loaded Tri Int)) =
    loadTS (GocadBody.fileTS true 1 none [cs!"p"] (.vrtx ⟨0, 0, 0⟩ [4] :: GocadBody.sampleRecs)) := by decide +kernel

example : (match (Grdecl.load (fun pts => (pts, List.range pts.length)) (fun n => (GrdeclIncludes.fs1 n).map windows) (windows GrdeclIncludes.main1) :
    Res (Grdecl.Solid Int)) with | .ok s => s.hexas | _ => []) = [[0, 1, 2, 3, 4, 5, 6, 7]] := by decide +kernel

example : (match Voxet.load Props.Voxet.geoZ (fun p => if p = cs!"v@@" then some (windows Props.Voxet.voData) else none) [] (windows Props.Voxet.voFile) with
    | .ok g => g.value cs!"perm" (0, 1, 0) | _ => none) = some 10 ∧ ∀ l ∈ Props.Voxet.voFile, '\r' ∉ l := by decide +kernel

example : SameLines [cs!"TRGL 1 2 3 ", cs!"END"] [cs!"TRGL 1 2 3\t", cs!"END"] :=
  .cons ⟨cs!"TRGL 1 2 3", cs!" ", cs!"\t", by decide, by decide, rfl, rfl⟩ (.cons ⟨cs!"END", [], [], by simp, by simp, rfl, rfl⟩ .nil)

end Verif.Props.LineEnds
