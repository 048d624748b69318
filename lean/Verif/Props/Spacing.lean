import Mathlib.Data.List.Forall2
import Verif.Lemmas.SpacingReaders
import Verif.Props.GocadBody
import Verif.Props.GrdeclIncludes
import Verif.Props.Voxet
import Verif.Props.Wells

/-!
# Blanks between words

Writers of other programs align their columns with several blanks, or with tabulations.
-/

namespace Verif.Props.Spacing

open Verif Verif.Gocad Verif.GocadMesh Verif.Spacing Verif.LineEnds

variable {D : Type} [Num D]

/-- Two lines have the same words. -/
def SameWords (l m : Str) : Prop := split l = split m

instance (l m : Str) : Decidable (SameWords l m) := by unfold SameWords; infer_instance

/-- Two lines are the same, or have the same words, none or both with blanks before, and are not one of the title lines of these formats. -/
def Respaced (t : Kind) (l m : Str) : Prop := l = m ∨ (∀ u ∈ t.titles, ¬u <+: l) ∧ SameWords l m ∧ indented l = indented m

/-- The same for the lines of two files. -/
def RespacedFile (t : Kind) (f g : File) : Prop := List.Forall₂ (Respaced t) f g

theorem respaced_tidy {t : Kind} {l m : Str} (h : Respaced t l m) : tidy t l = tidy t m := by
  rcases h with rfl | ⟨h, hs, hi⟩
  · rfl
  · have hl : isTitle t l = false := by
      unfold isTitle
      rw [List.any_eq_false]
      intro u hu hp
      exact h u hu (List.isPrefixOf_iff_prefix.1 hp)
    unfold tidy
    rw [← isTitle_words hs hi, ← hi, hl, show split l = split m from hs]
    rfl

theorem respaced_tidies {t : Kind} {f g : File} (h : RespacedFile t f g) : tidies t f = tidies t g := by
  induction h with
  | nil => rfl
  | cons h _ ih => rw [tidies_cons, tidies_cons, ih, respaced_tidy h]

/-- What is not changed by tidying the lines is the same for both files. -/
theorem of_tidies {A : Type} {t : Kind} {load : File → A} (h : ∀ f, load (tidies t f) = load f) {f g : File} (e : RespacedFile t f g) : load f = load g := by
  rw [← h f, respaced_tidies e, h g]

/-- **C193** for the meshes of GOCAD files. -/
theorem gocad_spacing_partial {f g : File} (h : RespacedFile .gocad f g) :
    (loadTS f : Res (Loaded Tri D)) = loadTS g ∧ (loadVS f : Res (Loaded Empty D)) = loadVS g ∧ (loadPL f : Res (Loaded Edge D)) = loadPL g := by
  refine ⟨of_tidies (load := loadTS) (fun f => ?_) h, of_tidies (load := loadVS) (fun f => ?_) h, of_tidies (load := loadPL) (fun f => ?_) h⟩
  · unfold loadTS; rw [tidies_length, tsLoop_tidy]
  · unfold loadVS; rw [tidies_length, vsLoop_tidy]
  · unfold loadPL; rw [tidies_length, plLoop_tidy]

section Wells

open Verif.Wells

/-- **C193** for wells.  In lists of points no line is a title. -/
theorem well_spacing_partial [Add D] {f g : File} :
    (RespacedFile .plain f g → (loadList f : Res (Well D)) = loadList g) ∧ (RespacedFile .petrel f g → (loadDev f : Res (Well D)) = loadDev g) ∧
    (RespacedFile .gocad f g → (loadWl f : Res (Well D)) = loadWl g) := by
  refine ⟨of_tidies (load := loadList) (fun f => ?_), of_tidies (load := loadDev) (fun f => ?_), of_tidies (load := loadWl) (fun f => ?_)⟩
  · unfold loadList; rw [coords_tidy]
  · unfold loadDev devHeader
    rw [check_tidy (by decide), LineEnds.bind_map]
    simp only [Res.bind_assoc']
    refine bind_same fun f => ?_
    rw [devHeaderLoop_tidy, LineEnds.bind_map]
    refine bind_same fun ⟨h, f⟩ => ?_
    simp only [Spacing.onRest, rows_tidy]
  · unfold loadWl
    rw [goto?_tidy (by decide)]
    cases gotoKeyword? cs!"GOCAD Well" f with
    | none => rfl
    | some x =>
      obtain ⟨l, f⟩ := x
      simp only [Option.map_some, Spacing.onLine]
      rw [header_tidy, LineEnds.bind_map]
      refine bind_same fun ⟨name, f⟩ => ?_
      simp only [Spacing.onRest]
      rw [crs_tidy, LineEnds.bind_map]
      refine bind_same fun ⟨crs, f⟩ => ?_
      simp only [Spacing.onRest]
      rw [Spacing.goto_tidy (by decide), LineEnds.bind_map]
      refine bind_same fun ⟨l, f⟩ => ?_
      simp only [Spacing.onLine, wlCoord_tidy]
      refine bind_same fun p => ?_
      rw [Spacing.goto_tidy (by decide), LineEnds.bind_map]
      refine bind_same fun ⟨l, f⟩ => ?_
      simp only [Spacing.onLine, paths_tidy]

end Wells

/-- **C193** for structural models, with their corners and lines. -/
theorem model_spacing_partial (lib : MlWhole.Library D) (mesh : Lso.RSurface → LsoLines.Border) {f g : File} (h : RespacedFile .gocad f g) :
    MlWhole.loadWhole lib f = MlWhole.loadWhole lib g ∧ (LsoWhole.loadModel mesh f : Res (LsoWhole.Whole D)) = LsoWhole.loadModel mesh g ∧
    (StratiLso.loadStrati f : Res (Lso.Loaded D × List (List (Pt D)))) = StratiLso.loadStrati g :=
  ⟨of_tidies (load := MlWhole.loadWhole lib) (fun f => by unfold MlWhole.loadWhole; rw [ml_tidy, corners_tidy]) h,
    of_tidies (load := LsoWhole.loadModel mesh) (fun f => by unfold LsoWhole.loadModel; rw [lso_tidy]) h,
    of_tidies (load := StratiLso.loadStrati) (fun f => by unfold StratiLso.loadStrati; rw [lso_tidy]) h⟩

section Grdecl

open Verif.Grdecl

variable [Add D] [Sub D] [Mul D] [Div D] [One D]

/-- No line includes another file. -/
def NoInclude (f : File) : Prop := ∀ l ∈ f, ¬cs!"INCLUDE" <+: l

theorem noInclude_tidies {f : File} (h : NoInclude f) : ∀ l ∈ tidies .plain f, startsWith l cs!"INCLUDE" = false := by
  intro l hl
  obtain ⟨m, hm, rfl⟩ := List.mem_map.1 hl
  rw [starts_tidy (key (by decide)), Bool.eq_false_iff]
  exact fun hp => h m hm (List.isPrefixOf_iff_prefix.1 hp)

theorem noInclude_starts {f : File} (h : NoInclude f) : ∀ l ∈ f, startsWith l cs!"INCLUDE" = false := by
  intro l hl
  rw [Bool.eq_false_iff]
  exact fun hp => h l hl (List.isPrefixOf_iff_prefix.1 hp)

theorem dims_mem {f r : File} {n : Nat × Nat × Nat} (h : readDims f = .ok (n, r)) : ∀ l ∈ r, l ∈ f := by
  unfold readDims at h
  simp only [Res.bind_eq_ok] at h
  obtain ⟨⟨l, f'⟩, h1, h2⟩ := h
  have m1 : ∀ x ∈ l :: f', x ∈ f := by
    unfold gotoKeyword at h1
    cases hg : gotoKeyword? cs!"SPECGRID" f with
    | none => rw [hg] at h1; cases h1
    | some y =>
      rw [hg] at h1
      cases h1
      obtain ⟨pre, e, -⟩ := GocadTruncated.gotoKeyword?_some hg
      intro x hx
      rw [e]
      exact List.mem_append_right _ hx
  have m2 : ∀ (g : File), readDimsLoop g = .ok (n, r) → ∀ x ∈ r, x ∈ g := by
    intro g
    induction g with
    | nil => intro h; cases h
    | cons l g ih =>
      intro h
      unfold readDimsLoop at h
      split at h
      · simp only [Res.bind_eq_ok] at h
        obtain ⟨_, _, _, _, _, _, _, _, _, _, _, _, h⟩ := h
        cases h
        exact fun x hx => List.mem_cons_of_mem _ hx
      · exact fun x hx => List.mem_cons_of_mem _ (ih h x hx)
  exact fun x hx => m1 x (m2 _ h2 x hx)

/-- **C193** for corner point grids in one file. -/
theorem grdecl_spacing_partial (merge : List (Pt D) → List (Pt D) × List Nat) (fs : Str → Option File) {f g : File} (hf : NoInclude f) (hg : NoInclude g)
    (h : RespacedFile .plain f g) : load merge fs f = load merge fs g := by
  have one : ∀ f : File, NoInclude f → load merge fs f = readDims f >>= fun x => readPillars x.1.1 x.1.2.1 f >>= fun p =>
      readDepths x.1.1 x.1.2.1 x.1.2.2 p.2 >>= fun ds => createCells merge x.1.1 x.1.2.1 x.1.2.2 p.1 ds := by
    intro f hf
    unfold load
    cases hd : readDims f with
    | ok x =>
      obtain ⟨⟨nx, ny, nz⟩, after⟩ := x
      simp only [Res.ok_bind]
      rw [includesLoop_none after fun l hl => noInclude_starts hf l (dims_mem hd l hl)]
      rfl
    | throw => rfl
    | ub => rfl
    | diverge => rfl
  have same : ∀ f : File, (readDims (tidies .plain f) >>= fun x => readPillars x.1.1 x.1.2.1 (tidies .plain f) >>= fun p =>
      readDepths x.1.1 x.1.2.1 x.1.2.2 p.2 >>= fun ds => createCells merge x.1.1 x.1.2.1 x.1.2.2 p.1 ds) =
      (readDims f >>= fun x => readPillars x.1.1 x.1.2.1 f >>= fun p =>
      readDepths x.1.1 x.1.2.1 x.1.2.2 p.2 >>= fun ds => createCells merge x.1.1 x.1.2.1 x.1.2.2 p.1 ds) := by
    intro f
    rw [dims_tidy, LineEnds.bind_map]
    refine bind_same fun x => ?_
    simp only [Spacing.onRest, pillars_tidy, LineEnds.bind_map]
    refine bind_same fun p => ?_
    simp only [depths_tidy]
  rw [one f hf, one g hg, ← same f, ← same g, respaced_tidies h]

end Grdecl

section Voxet

open Verif.Voxet Verif.Wells

theorem dataFile_tidy : ∀ f : File, dataFile (tidies .voxet f) = dataFile f
  | [] => rfl
  | l :: f => by
    have ih := dataFile_tidy f
    unfold dataFile at ih ⊢
    simp only [tidies_cons, gotoKeyword?, starts_tidy (show Key .voxet cs!"ASCII_DATA_FILE" by decide)]
    split
    · rename_i h
      have : tidy .voxet l = l := by
        unfold tidy
        rw [if_pos]
        unfold isTitle
        rw [List.any_eq_true]
        exact ⟨_, by decide, h⟩
      simp only [this, Option.map_some]
    · exact ih

/-- **C193** for Voxets: in the data file no line is a title. -/
theorem voxet_spacing_partial (geo : Geo D) (folder : Str) {fs gs : Str → Option File} {f g : File}
    (hs : ∀ n, (fs n = none ∧ gs n = none) ∨ ∃ a b, fs n = some a ∧ gs n = some b ∧ RespacedFile .plain a b) (h : RespacedFile .voxet f g) :
    load geo fs folder f = load geo gs folder g := by
  have head : loadHead geo folder f = loadHead geo folder g := by
    refine of_tidies (load := loadHead geo folder) (fun f => ?_) h
    unfold loadHead
    rw [goto?_tidy (by decide)]
    cases gotoKeyword? cs!"GOCAD Voxet" f with
    | none => rfl
    | some x =>
      obtain ⟨l, f⟩ := x
      simp only [Option.map_some, Spacing.onLine]
      rw [header_tidy, LineEnds.bind_map]
      refine bind_same fun ⟨name, f⟩ => ?_
      simp only [Spacing.onRest]
      rw [crs_tidy, LineEnds.bind_map]
      refine bind_same fun ⟨_, f⟩ => ?_
      simp only [Spacing.onRest]
      rw [initGrid_tidy, LineEnds.bind_map]
      refine bind_same fun ⟨grid, f⟩ => ?_
      simp only [Spacing.onRest, dataFile_tidy]
  unfold load
  rw [head]
  refine bind_same fun ⟨grid, path⟩ => ?_
  rcases hs path with ⟨h1, h2⟩ | ⟨a, b, h1, h2, hab⟩
  · simp only [h1, h2]
  · simp only [h1, h2, Res.ofParse_some, Res.ok_bind]
    rw [← readData_tidy (t := .plain) (f := a), respaced_tidies hab, readData_tidy]

end Voxet

/-! ## Where the blanks do matter -/

/-- C193 in full for surfaces: the words of the lines are all that matters. -/
def OnlyWords (D : Type) [Num D] : Prop := ∀ f g : File, List.Forall₂ SameWords f g → (loadTS f : Res (Loaded Tri D)) = loadTS g

/-- A surface of one triangle. -/
def small : File := [cs!"GOCAD TSurf 1", cs!"HEADER {", cs!"name:s", cs!"}", cs!"TFACE", cs!"VRTX 1 0 0 0", cs!"VRTX 2 1 0 0", cs!"VRTX 3 0 1 0", cs!"TRGL 1 2 3", cs!"END"]

/-- **C193 fails** for the title: with two blanks between its first words no surface is found. -/
theorem title_matters : ∃ g : File, List.Forall₂ SameWords small g ∧ (∃ m : Loaded Tri Int, loadTS small = .ok m ∧ m.cells.length = 1) ∧
    (loadTS g : Res (Loaded Tri Int)) = .ok {} := by
  refine ⟨cs!"GOCAD  TSurf 1" :: small.tail, by decide +kernel, ?_, by decide +kernel⟩
  cases h : (loadTS small : Res (Loaded Tri Int)) with
  | ok m =>
    refine ⟨m, rfl, ?_⟩
    have : (match (loadTS small : Res (Loaded Tri Int)) with | .ok m => m.cells.length | _ => 0) = 1 := by decide +kernel
    rw [h] at this
    exact this
  | throw => exact absurd h (by decide +kernel)
  | ub => exact absurd h (by decide +kernel)
  | diverge => exact absurd h (by decide +kernel)

/-- **C193 fails** for keywords that are looked for: with a blank before it, the beginning of the triangles is not found. -/
theorem indentation_matters : ∃ g : File, List.Forall₂ SameWords small g ∧ (loadTS g : Res (Loaded Tri Int)) = .throw := by
  exact ⟨small.map fun l => if l = cs!"TFACE" then cs!" TFACE" else l, by decide +kernel, by decide +kernel⟩

theorem not_onlyWords : ¬OnlyWords Int := by
  intro h
  obtain ⟨g, hg, ⟨m, hm, hc⟩, h0⟩ := title_matters
  rw [h _ _ hg, h0] at hm
  cases hm
  cases hc

/-- **C193 fails** for the name of the data file of a Voxet: with two blanks before it, one of them is taken as part of the name. -/
theorem data_file_matters : ∃ (fs : Str → Option File) (f : File), List.Forall₂ SameWords f Props.Voxet.voFile ∧
    (∃ r, Voxet.load Props.Voxet.geoZ fs [] Props.Voxet.voFile = .ok r) ∧ Voxet.load Props.Voxet.geoZ fs [] f = .throw := by
  refine ⟨fun p => if p = cs!"v@@" then some Props.Voxet.voData else none,
    Props.Voxet.voFile.map fun l => if startsWith l cs!"ASCII_DATA_FILE" then cs!"ASCII_DATA_FILE " ++ l.drop 15 else l, by decide +kernel, ?_, by decide +kernel⟩
  cases h : Voxet.load Props.Voxet.geoZ (fun p => if p = cs!"v@@" then some Props.Voxet.voData else none) [] Props.Voxet.voFile with
  | ok r => exact ⟨r, rfl⟩
  | throw => exact absurd h (by decide +kernel)
  | ub => exact absurd h (by decide +kernel)
  | diverge => exact absurd h (by decide +kernel)

/-! Tests: files with aligned columns. -/

/-- The surface with more blanks and tabulations. -/
def aligned : File := [cs!"GOCAD TSurf 1", cs!"HEADER\t{", cs!"name:s", cs!"}", cs!"TFACE ", cs!"VRTX  1   0 0 0", cs!"VRTX  2   1 0 0", cs!"VRTX  3\t0 1 0", cs!"TRGL  1 2 3", cs!"END"]

instance (t : Kind) (l m : Str) : Decidable (Respaced t l m) := by unfold Respaced; infer_instance

example : RespacedFile .gocad aligned small := by unfold RespacedFile; decide +kernel

example : (loadTS aligned : Res (Loaded Tri Int)) = loadTS small := by decide +kernel

example : RespacedFile .plain [cs!"0  0 0", cs!"1\t0  0"] [cs!"0 0 0", cs!"1 0 0"] := by unfold RespacedFile; decide +kernel

end Verif.Props.Spacing
