import Verif.Lemmas.Comments
import Verif.Model.Voxet
import Verif.Props.Voxet

/-!
# Lines of comment

In GOCAD files the lines that start with `#` are comments.
-/

namespace Verif.Props.Comments

open Verif Verif.Gocad Verif.GocadMesh Verif.Comments

variable {D : Type} [Num D]

/-- The second file is the first one with lines of comment at any places, with any texts. -/
inductive Annotated : File → File → Prop
  | nil : Annotated [] []
  | keep {f g : File} (l : Str) : Annotated f g → Annotated (l :: f) (l :: g)
  | note {f g : File} {c : Str} : startsWith c ['#'] = true → Annotated f g → Annotated f (c :: g)

/-- **C185**: lines of comment do not change what is loaded. -/
def CommentsIgnored {A : Type} (load : File → Res A) : Prop := ∀ f g, Annotated f g → load g = load f

/-- The files of `Noted` are annotated ones. -/
theorem noted_annotated {bad : Str → Bool} {b : Bool} {f g : File} (h : Noted bad b f g) : Annotated f g := by
  induction h with
  | nil => exact .nil
  | keep l _ ih => exact .keep l ih
  | note hc _ ih => exact .note hc.1 ih

/-! ## Meshes -/

theorem tsLoop_noted {n n' : Nat} {m : Loaded Tri D} {b : Bool} {f g : File} (h : Noted (heads cs!"GOCAD TSurf") b f g) (hf : f.length < n) (hg : g.length < n') :
    loadTSLoop n' m g = loadTSLoop n m f := by
  induction n generalizing n' m b f g with
  | zero => omega
  | succ n ih =>
    obtain ⟨n', rfl⟩ : ∃ k, n' = k + 1 := ⟨n' - 1, by omega⟩
    rw [loadTSLoop, loadTSLoop]
    have hs := tsurf_noted (D := D) h
    have ff := (readTSurf_fwd (D := D) f).2
    have fg := (readTSurf_fwd (D := D) g).2
    generalize hr : (readTSurf f : Res (Option (TSurf D × File))) = r at hs ff
    generalize hr' : (readTSurf g : Res (Option (TSurf D × File))) = r' at hs fg
    cases hs with
    | throw => rfl
    | ub => rfl
    | diverge => rfl
    | @ok a c hab =>
      match a, c, hab with
      | none, none, _ => rfl
      | some (t, f'), some (t', g'), ⟨e, h'⟩ =>
        simp only at e h'
        subst e
        have := ff t f' rfl
        have := fg t g' rfl
        simp only [Res.ok_bind]
        cases buildSurface m t with
        | ok m => exact ih h' (by omega) (by omega)
        | throw => rfl
        | ub => rfl
        | diverge => rfl

theorem vsLoop_noted {n n' : Nat} {m : Loaded Empty D} {b : Bool} {f g : File} (h : Noted (heads cs!"GOCAD VSet") b f g) (hf : f.length < n) (hg : g.length < n') :
    loadVSLoop n' m g = loadVSLoop n m f := by
  induction n generalizing n' m b f g with
  | zero => omega
  | succ n ih =>
    obtain ⟨n', rfl⟩ : ∃ k, n' = k + 1 := ⟨n' - 1, by omega⟩
    rw [loadVSLoop, loadVSLoop]
    have hs := vset_noted (D := D) h
    have ff := (readVSet_fwd (D := D) f).2
    have fg := (readVSet_fwd (D := D) g).2
    generalize hr : (readVSet f : Res (Option (VSet D × File))) = r at hs ff
    generalize hr' : (readVSet g : Res (Option (VSet D × File))) = r' at hs fg
    cases hs with
    | throw => rfl
    | ub => rfl
    | diverge => rfl
    | @ok a c hab =>
      match a, c, hab with
      | none, none, _ => rfl
      | some (t, f'), some (t', g'), ⟨e, h'⟩ =>
        simp only at e h'
        subst e
        have := ff t f' rfl
        have := fg t g' rfl
        simp only [Res.ok_bind]
        cases buildPointSet m t with
        | ok m => exact ih h' (by omega) (by omega)
        | throw => rfl
        | ub => rfl
        | diverge => rfl

theorem plLoop_noted {n n' : Nat} {m : Loaded Edge D} {b : Bool} {f g : File} (h : Noted (heads cs!"GOCAD PLine") b f g) (hf : f.length < n) (hg : g.length < n') :
    loadPLLoop n' m g = loadPLLoop n m f := by
  induction n generalizing n' m b f g with
  | zero => omega
  | succ n ih =>
    obtain ⟨n', rfl⟩ : ∃ k, n' = k + 1 := ⟨n' - 1, by omega⟩
    rw [loadPLLoop, loadPLLoop]
    have hs := curve_noted (D := D) h
    have ff := (GocadEnds.readECurve_fwd (D := D) f).2
    have fg := (GocadEnds.readECurve_fwd (D := D) g).2
    generalize hr : (readECurve f : Res (Option (ECurve D × File))) = r at hs ff
    generalize hr' : (readECurve g : Res (Option (ECurve D × File))) = r' at hs fg
    cases hs with
    | throw => rfl
    | ub => rfl
    | diverge => rfl
    | @ok a c hab =>
      match a, c, hab with
      | none, none, _ => rfl
      | some (t, f'), some (t', g'), ⟨e, h'⟩ =>
        simp only at e h'
        subst e
        have := ff t f' rfl
        have := fg t g' rfl
        simp only [Res.ok_bind]
        cases buildCurve m t with
        | ok m => exact ih h' (by omega) (by omega)
        | throw => rfl
        | ub => rfl
        | diverge => rfl

/-- **C185 for surfaces, point sets and curves**, with comments without `name:` and without quotes that do not follow a title, the end of a header or the end
of a coordinate system. -/
theorem mesh_comments_partial {f g : File} :
    (Noted (heads cs!"GOCAD TSurf") true f g → (loadTS g : Res (Loaded Tri D)) = loadTS f) ∧
    (Noted (heads cs!"GOCAD VSet") true f g → (loadVS g : Res (Loaded Empty D)) = loadVS f) ∧
    (Noted (heads cs!"GOCAD PLine") true f g → (loadPL g : Res (Loaded Edge D)) = loadPL f) :=
  ⟨fun h => tsLoop_noted h (Nat.lt_succ_self _) (Nat.lt_succ_self _), fun h => vsLoop_noted h (Nat.lt_succ_self _) (Nat.lt_succ_self _),
    fun h => plLoop_noted h (Nat.lt_succ_self _) (Nat.lt_succ_self _)⟩

/-! ## Wells -/

/-- The lines that no comment may follow in a well: those of `heads`, and the records of the path. -/
def wellHeads (l : Str) : Bool := heads cs!"GOCAD Well" l || startsWith l cs!"PATH"

theorem Both.eq {A : Type} {r r' : Res A} (h : Both (fun a b => a = b) r r') : r' = r := by
  cases h with
  | ok h => rw [h]
  | throw => rfl
  | ub => rfl
  | diverge => rfl

theorem kept_well : Kept cs!"GOCAD Well" wellHeads := fun l h => by unfold wellHeads; rw [h]; rfl

theorem paths_noted [Add D] (z : Bool) (ref : Pt D) : ∀ {f g : File} (ps : List (Pt D)), Noted wellHeads false f g →
    Both (fun a b => a = b) (Wells.wlPaths z ref ps f) (Wells.wlPaths z ref ps g)
  | [], g, ps, h => by cases h; exact .ok rfl
  | l :: f, g, ps, h => by
    cases h with
    | @keep _ _ g _ h =>
      simp only [Wells.wlPaths]
      split
      · rename_i hs
        have : wellHeads l = true := by unfold wellHeads; rw [hs]; simp
        rw [this] at h
        exact Both.after fun t => paths_noted z ref _ h
      · exact .ok rfl

/-- **C185 for GOCAD wells**, with such comments that do not follow a record of the path. -/
theorem well_comments_partial [Add D] {f g : File} (h : Noted wellHeads true f g) : (Wells.loadWl g : Res (Wells.Well D)) = Wells.loadWl f := by
  apply Both.eq
  unfold Wells.loadWl
  rcases goto?_noted (show Comments.Plain cs!"GOCAD Well" by decide) h with ⟨e, e'⟩ | ⟨x, y, e, e', r⟩ <;> rw [e, e']
  · exact .throw
  · obtain ⟨l, f⟩ := x
    obtain ⟨m, g⟩ := y
    obtain ⟨-, hl, h⟩ := r
    simp only at hl h
    rw [kept_well l (heads_title hl)] at h
    refine (header_noted kept_well h).bind fun ⟨n, f⟩ ⟨n', g⟩ ⟨e1, h⟩ => ?_
    simp only at e1 h
    refine (crs_noted kept_well h).bind fun ⟨c, f⟩ ⟨c', g⟩ ⟨e2, h⟩ => ?_
    simp only at e2 h
    subst e1 e2
    refine (goto_noted (by decide) h).bind fun ⟨l, f⟩ ⟨m, g⟩ ⟨e, _, h⟩ => ?_
    simp only at e h ⊢
    subst e
    refine Both.after fun p => ?_
    refine (goto_noted (by decide) h).bind fun ⟨l, f⟩ ⟨m, g⟩ ⟨e, hs, h⟩ => ?_
    simp only at e hs h ⊢
    have : wellHeads l = true := by unfold wellHeads; rw [hs]; simp
    rw [this] at h
    refine (paths_noted _ _ _ h).bind fun a b e => ?_
    subst e
    exact .ok rfl

/-! ## Voxets -/

theorem initGrid_noted (g : Voxet.Geo D) (name : Option Str) {bad : Str → Bool} {b : Bool} {f f' : File} (h : Noted bad b f f') :
    Both (Rest bad true) (Voxet.initGrid g name f) (Voxet.initGrid g name f') := by
  unfold Voxet.initGrid
  refine (goto_noted (by decide) h).bind fun ⟨l, f⟩ ⟨m, g⟩ ⟨e, _, h⟩ => ?_
  simp only at e h ⊢; subst e
  refine Both.after fun o => ?_
  refine (goto_noted (by decide) h).bind fun ⟨l, f⟩ ⟨m, g⟩ ⟨e, _, h⟩ => ?_
  simp only at e h ⊢; subst e
  refine Both.after fun u => ?_
  refine (goto_noted (by decide) h).bind fun ⟨l, f⟩ ⟨m, g⟩ ⟨e, _, h⟩ => ?_
  simp only at e h ⊢; subst e
  refine Both.after fun v => ?_
  refine (goto_noted (by decide) h).bind fun ⟨l, f⟩ ⟨m, g⟩ ⟨e, _, h⟩ => ?_
  simp only at e h ⊢; subst e
  refine Both.after fun w => ?_
  refine (goto_noted (by decide) h).bind fun ⟨l, f⟩ ⟨m, g⟩ ⟨e, _, h⟩ => ?_
  simp only at e h ⊢; subst e
  exact Both.after fun n => .ok ⟨rfl, h.more⟩

/-- **C185 for the header files of Voxets**, with such comments. -/
theorem voxet_comments_partial (geo : Voxet.Geo D) (fs : Str → Option File) (folder : Str) {f g : File} (h : Noted (heads cs!"GOCAD Voxet") true f g) :
    Voxet.load geo fs folder g = Voxet.load geo fs folder f := by
  have key : Both (fun a b => a = b) (Voxet.loadHead geo folder f) (Voxet.loadHead geo folder g) := by
    unfold Voxet.loadHead
    rcases goto?_noted (show Comments.Plain cs!"GOCAD Voxet" by decide) h with ⟨e, e'⟩ | ⟨x, y, e, e', r⟩ <;> rw [e, e']
    · exact .throw
    · obtain ⟨l, f⟩ := x
      obtain ⟨m, g⟩ := y
      obtain ⟨-, hl, h⟩ := r
      simp only at hl h
      rw [heads_title hl] at h
      refine (header_noted (title := cs!"GOCAD Voxet") (fun _ h => h) h).bind fun ⟨n, f⟩ ⟨n', g⟩ ⟨e1, h⟩ => ?_
      simp only at e1 h
      refine (crs_noted (title := cs!"GOCAD Voxet") (fun _ h => h) h).bind fun ⟨c, f⟩ ⟨c', g⟩ ⟨e2, h⟩ => ?_
      simp only at e2 h
      subst e1 e2
      refine (initGrid_noted geo n h).bind fun ⟨x, f⟩ ⟨y, g⟩ ⟨e, h⟩ => ?_
      simp only at e h ⊢
      subst e
      unfold Voxet.dataFile
      rcases goto?_noted (show Comments.Plain cs!"ASCII_DATA_FILE" by decide) h with ⟨e, e'⟩ | ⟨u, v, e, e', r⟩ <;> rw [e, e']
      · exact .throw
      · simp only [Option.map_some, r.1]
        exact .ok rfl
  unfold Voxet.load
  rw [Both.eq key]

/-! ## Where comments do harm -/

/-- A surface in depth, with the given lines of the file around its coordinate system. -/
def depthSurface (inHeader beforeSystem afterSystem : File) : File :=
  [cs!"GOCAD TSurf 1", cs!"HEADER {", cs!"name:s"] ++ inHeader ++ [cs!"}"] ++ beforeSystem ++ [cs!"GOCAD_ORIGINAL_COORDINATE_SYSTEM", cs!"ZPOSITIVE Depth",
    cs!"END_ORIGINAL_COORDINATE_SYSTEM"] ++ afterSystem ++ [cs!"PROPERTIES p", cs!"PROP_LEGAL_RANGES **none** **none**", cs!"NO_DATA_VALUES -99999",
    cs!"PROPERTY_CLASSES p", cs!"PROPERTY_KINDS k", cs!"PROPERTY_SUBCLASSES QUANTITY Float", cs!"ESIZES 1", cs!"UNITS u", cs!"TFACE", cs!"PVRTX 1 0 0 5 7",
    cs!"PVRTX 2 1 0 5 8", cs!"PVRTX 3 0 1 5 9", cs!"TRGL 1 2 3", cs!"END"]

/-- The elevations, the name and the properties that are loaded. -/
def seen (f : File) : Option (List Int × Option Str × Nat) :=
  match (loadTS f : Res (Loaded Tri Int)) with
  | .ok m => some (m.points.map Pt.z, m.name, m.store.length)
  | _ => none

/-- A comment before the coordinate system turns depths into elevations and loses the properties, a comment before the property header loses the properties, and
a comment in the header renames the surface: without any report. -/
theorem comments_do_harm : seen (depthSurface [] [] []) = some ([-5, -5, -5], some cs!"s", 1) ∧
    seen (depthSurface [] [cs!"# depths"] []) = some ([5, 5, 5], some cs!"s", 0) ∧
    seen (depthSurface [] [] [cs!"# one property"]) = some ([-5, -5, -5], some cs!"s", 0) ∧
    seen (depthSurface [cs!"# name: the name of the horizon"] [] []) = some ([-5, -5, -5], some cs!"the name of the horizon", 1) := by
  refine ⟨?_, ?_, ?_, ?_⟩ <;> decide +kernel

/-- **C185 fails** for surfaces. -/
theorem comments_not_ignored : ¬ CommentsIgnored (fun f => (loadTS f : Res (Loaded Tri Int))) := by
  intro h
  have e := h (depthSurface [] [] []) (depthSurface [] [cs!"# depths"] []) (by
    simp only [depthSurface, List.nil_append, List.append_nil, List.cons_append]
    iterate 4 apply Annotated.keep
    refine .note (by decide) ?_
    repeat apply Annotated.keep
    exact .nil)
  have same : seen (depthSurface [] [cs!"# depths"] []) = seen (depthSurface [] [] []) := by
    have e : (loadTS (depthSurface [] [cs!"# depths"] []) : Res (Loaded Tri Int)) = loadTS (depthSurface [] [] []) := e
    unfold seen
    rw [e]
  rw [comments_do_harm.2.1, comments_do_harm.1] at same
  exact absurd same (by decide)

/-- A well of three records, and the same with a comment after the second one. -/
def well (note : File) : File :=
  [cs!"GOCAD Well 1", cs!"HEADER {", cs!"name:w", cs!"}", cs!"WREF 0 0 0", cs!"PATH 0 0 0 0", cs!"PATH 1 1 0 0"] ++ note ++ [cs!"PATH 2 2 0 0", cs!"END"]

/-- **C185 fails** for wells: the path ends at the comment. -/
theorem well_cut : ¬ CommentsIgnored (fun f => (Wells.loadWl f : Res (Wells.Well Int))) ∧
    ((Wells.loadWl (well []) : Res (Wells.Well Int)).bind fun w => .ok w.points.length) = .ok 3 ∧
    ((Wells.loadWl (well [cs!"# deviated"]) : Res (Wells.Well Int)).bind fun w => .ok w.points.length) = .ok 2 := by
  have h3 : ((Wells.loadWl (well []) : Res (Wells.Well Int)).bind fun w => .ok w.points.length) = .ok 3 := by decide +kernel
  have h2 : ((Wells.loadWl (well [cs!"# deviated"]) : Res (Wells.Well Int)).bind fun w => .ok w.points.length) = .ok 2 := by decide +kernel
  refine ⟨fun h => ?_, h3, h2⟩
  have e := h (well []) (well [cs!"# deviated"]) (by
    simp only [well, List.nil_append, List.append_nil, List.cons_append]
    iterate 7 apply Annotated.keep
    refine .note (by decide) ?_
    repeat apply Annotated.keep
    exact .nil)
  simp only at e
  rw [e, h3] at h2
  exact absurd h2 (by decide)

/-! Tests: files with comments at other places. -/

example : Noted (heads cs!"GOCAD TSurf") true [cs!"GOCAD TSurf 1", cs!"HEADER {", cs!"}", cs!"TFACE", cs!"END"]
    [cs!"# surfaces", cs!"GOCAD TSurf 1", cs!"HEADER {", cs!"# none", cs!"}", cs!"TFACE", cs!"# empty", cs!"END", cs!"#"] := by
  refine .note (by decide) (.keep _ ?_)
  rw [show (!heads cs!"GOCAD TSurf" cs!"GOCAD TSurf 1") = false by decide]
  refine .keep _ ?_
  rw [show (!heads cs!"GOCAD TSurf" cs!"HEADER {") = true by decide]
  refine .note (by decide) (.keep _ ?_)
  rw [show (!heads cs!"GOCAD TSurf" cs!"}") = false by decide]
  refine .keep _ ?_
  rw [show (!heads cs!"GOCAD TSurf" cs!"TFACE") = true by decide]
  refine .note (by decide) (.keep _ ?_)
  rw [show (!heads cs!"GOCAD TSurf" cs!"END") = true by decide]
  exact .note (by decide) .nil

example : Comment cs!"# made on Monday" ∧ ¬ Comment cs!"# name: w" ∧ ¬ Comment cs!"# \"w\"" := by decide

end Verif.Props.Comments
