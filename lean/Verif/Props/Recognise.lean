import Verif.Model.Recognise

/-!
# Recognition of files

`Mentions kw f`: some line of the file starts with the keyword.
-/

namespace Verif.Props.Recognise

open Verif.Recognise Verif.GocadMesh Verif.Gocad

variable {D : Type} [Num D]

/-- Some line of the file starts with the keyword. -/
def Mentions (kw : Str) (f : File) : Prop := ∃ l ∈ f, ∃ rest, l = kw ++ rest

theorem hasKeyword_iff (kw : Str) (f : File) : hasKeyword kw f = true ↔ Mentions kw f := by
  induction f with
  | nil => simp [hasKeyword, gotoKeyword?, Mentions]
  | cons l ls ih =>
    have e : hasKeyword kw (l :: ls) = (if startsWith l kw then some (l, ls) else gotoKeyword? kw ls).isSome := rfl
    rw [e]
    by_cases h : startsWith l kw = true
    · rw [if_pos h]
      obtain ⟨r, hr⟩ := List.isPrefixOf_iff_prefix.1 h
      exact ⟨fun _ => ⟨l, by simp, r, hr.symm⟩, fun _ => rfl⟩
    · rw [if_neg h]
      refine ih.trans ?_
      constructor
      · rintro ⟨l', h1, h2⟩
        exact ⟨l', by simp [h1], h2⟩
      · rintro ⟨l', h1, r, h2⟩
        rcases List.mem_cons.1 h1 with rfl | h1
        · exact absurd (List.isPrefixOf_iff_prefix.2 ⟨r, h2.symm⟩) h
        · exact ⟨l', h1, r, h2⟩

theorem goto_none {kw : Str} {f : File} (h : hasKeyword kw f = false) : gotoKeyword? kw f = none := by
  unfold hasKeyword at h
  cases hg : gotoKeyword? kw f with
  | none => rfl
  | some r => rw [hg] at h; cases h

/-! ## C81: saved files are recognised -/

theorem saved_ts_recognised (m : Mesh Tri D) : isLoadableTS (saveTS m) = true := by
  refine (hasKeyword_iff _ _).2 ⟨cs!"GOCAD TSurf 1", ?_, cs!" 1", rfl⟩
  simp [saveTS]

theorem saved_vs_recognised (m : Mesh Empty D) : isLoadableVS (saveVS m) = true := by
  refine (hasKeyword_iff _ _).2 ⟨cs!"GOCAD VSet 1", ?_, cs!" 1", rfl⟩
  simp [saveVS]

theorem saved_pl_recognised (m : Mesh Edge D) {f : File} (h : savePL m = .ok f) : isLoadablePL f = true := by
  obtain ⟨s, _, h⟩ := Res.bind_eq_ok.1 h
  cases h
  refine (hasKeyword_iff _ _).2 ⟨cs!"GOCAD PLine 1", ?_, cs!" 1", rfl⟩
  simp

theorem saved_ml_recognised (m : Ml.Model D) (sides : Sides.AllSides) {f : File} (h : Ml.saveMl m sides = .ok f) : isLoadableMl f = true := by
  obtain ⟨s, _, h⟩ := Res.bind_eq_ok.1 h
  obtain ⟨t, _, h⟩ := Res.bind_eq_ok.1 h
  cases h
  refine (hasKeyword_iff _ _).2 ⟨cs!"GOCAD Model3d 1", ?_, cs!" 1", rfl⟩
  simp

theorem saved_lso_recognised (m : Lso.Model D) (sides : Sides.AllSides) {f : File} (h : Lso.saveLso m sides = .ok f) :
    isLoadableLso f = true := by
  obtain ⟨s, _, h⟩ := Res.bind_eq_ok.1 h
  obtain ⟨t, _, h⟩ := Res.bind_eq_ok.1 h
  obtain ⟨t, _, h⟩ := Res.bind_eq_ok.1 h
  obtain ⟨t, _, h⟩ := Res.bind_eq_ok.1 h
  cases h
  refine (hasKeyword_iff _ _).2 ⟨cs!"GOCAD LightTSolid 1", ?_, cs!" 1", rfl⟩
  simp

/-! ## C82: files that are not recognised are refused -/

/-- Full statement for one format: a file that is not recognised is refused with an exception. -/
def Refuses {α : Type} (recognised : File → Bool) (load : File → Res α) : Prop := ∀ f, recognised f = false → load f = .throw

theorem wl_refused [Add D] : Refuses isLoadableWl (Wells.loadWl (D := D)) := by
  intro f h
  unfold Wells.loadWl
  rw [goto_none h]

/-- Point lists: every file that loads is recognised, and so are files that are refused. -/
theorem points_recognised : (∀ (f : File) (w : Wells.Well D), Wells.loadList f = .ok w → isLoadablePoints f = true) ∧
    isLoadablePoints [cs!"0 0"] = true ∧ (Wells.loadList [cs!"0 0"] : Res (Wells.Well D)) = .throw := by
  refine ⟨fun _ _ _ => rfl, rfl, ?_⟩
  have e : (Wells.readCoord3 cs!"0 0" : Res (Pt D)) = .throw := by
    unfold Wells.readCoord3
    rw [show split cs!"0 0" = [cs!"0", cs!"0"] by decide]
    rfl
  unfold Wells.loadList
  rw [Res.mapM'_cons, e]
  rfl

theorem dev_refused : Refuses isLoadableDev (Wells.loadDev (D := D)) := by
  intro f h
  have hc : checkKeyword cs!"# WELL TRACE FROM PETREL" f = .throw := by
    cases f with
    | nil => rfl
    | cons l ls =>
      by_cases hs : startsWith l cs!"# WELL TRACE FROM PETREL" = true
      · obtain ⟨r, hr⟩ := List.isPrefixOf_iff_prefix.1 hs
        have : isLoadableDev (l :: ls) = true := (hasKeyword_iff _ _).2 ⟨l, by simp, cs!" FROM PETREL" ++ r, by rw [← hr]; rfl⟩
        rw [this] at h
        cases h
      · exact if_neg hs
  unfold Wells.loadDev Wells.devHeader
  rw [hc]
  rfl

theorem voxet_refused (g : Voxet.Geo D) (fs : Str → Option File) (folder : Str) : Refuses isLoadableVo (Voxet.load g fs folder) := by
  intro f h
  unfold Voxet.load Voxet.loadHead
  rw [goto_none h]
  rfl

theorem grdecl_refused [Add D] [Sub D] [Mul D] [Div D] [One D] (merge : List (Pt D) → List (Pt D) × List Nat) (fs : Str → Option File) :
    Refuses isLoadableGrdecl (Grdecl.load merge fs) := by
  intro f h
  unfold Grdecl.load Grdecl.readDims gotoKeyword
  rw [goto_none h]
  rfl

theorem ml_refused : Refuses isLoadableMl (Ml.loadMl (D := D)) := by
  intro f h
  unfold Ml.loadMl gotoKeyword
  rw [goto_none h]
  rfl

theorem lso_refused : Refuses isLoadableLso (Lso.loadLso (D := D)) := by
  intro f h
  unfold Lso.loadLso gotoKeyword
  rw [goto_none h]
  rfl

/-- The code does not refuse them for the three formats that may hold several objects: every file without object is loaded as an empty
mesh, without exception. -/
theorem ts_empty {f : File} (h : isLoadableTS f = false) : (loadTS f : Res (Loaded Tri D)) = .ok {} := by
  unfold loadTS loadTSLoop readTSurf
  rw [goto_none h]
  rfl

theorem vs_empty {f : File} (h : isLoadableVS f = false) : (loadVS f : Res (Loaded Empty D)) = .ok {} := by
  unfold loadVS loadVSLoop readVSet
  rw [goto_none h]
  rfl

theorem pl_empty {f : File} (h : isLoadablePL f = false) : (loadPL f : Res (Loaded Edge D)) = .ok {} := by
  unfold loadPL loadPLLoop readECurve
  rw [goto_none h]
  rfl

theorem meshes_not_refused : ¬ Refuses isLoadableTS (loadTS (D := D)) ∧ ¬ Refuses isLoadableVS (loadVS (D := D)) ∧
    ¬ Refuses isLoadablePL (loadPL (D := D)) := by
  refine ⟨fun h => ?_, fun h => ?_, fun h => ?_⟩
  · have := h [cs!"GOCAD VSet 1", cs!"END"] (by decide)
    rw [ts_empty (by decide)] at this
    cases this
  · have := h [cs!"GOCAD TSurf 1", cs!"END"] (by decide)
    rw [vs_empty (by decide)] at this
    cases this
  · have := h [cs!"GOCAD TSurf 1", cs!"END"] (by decide)
    rw [pl_empty (by decide)] at this
    cases this

/-! ## C83: recognised surveys -/

/-- A deviation survey is recognised wherever its title is, but read only when the title is on the first line. -/
theorem dev_title_first (l : Str) (f : File) (h : startsWith l cs!"# WELL TRACE FROM PETREL" = false) :
    (Wells.loadDev (l :: f) : Res (Wells.Well D)) = .throw := by
  have e : checkKeyword cs!"# WELL TRACE FROM PETREL" (l :: f) = .throw := if_neg (by rw [h]; decide)
  unfold Wells.loadDev Wells.devHeader
  rw [e]
  rfl

theorem dev_recognised_refused : isLoadableDev [[], cs!"# WELL TRACE FROM PETREL"] = true ∧
    (Wells.loadDev [[], cs!"# WELL TRACE FROM PETREL"] : Res (Wells.Well D)) = .throw :=
  ⟨by decide, dev_title_first _ _ (by decide)⟩

/-! The hypotheses are met: a text that no format recognises, and one that only one recognises. -/

example : [isLoadableTS, isLoadableVS, isLoadablePL, isLoadableWl, isLoadableDev, isLoadableVo, isLoadableGrdecl, isLoadableMl, isLoadableLso].map
    (· [cs!"hello", cs!" GOCAD TSurf 1"]) = List.replicate 9 false := by decide +kernel

example : [isLoadableTS, isLoadableVS, isLoadablePL, isLoadableMl, isLoadableLso].map (· [cs!"hello", cs!"GOCAD VSet 1"]) =
    [false, true, false, false, false] := by decide +kernel

end Verif.Props.Recognise
