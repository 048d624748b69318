import Verif.Lemmas.GocadLoad
import Verif.Lemmas.GocadBuild

/-!
# Reading `.pl` files ends
-/

namespace Verif.Props.GocadEnds

open Verif Verif.Gocad Verif.GocadMesh

variable {D : Type} [Num D]

theorem plLine_ne_diverge (ec : ECurve D) (kw : Str) (tokens : List Str) : plLine ec kw tokens ≠ .diverge := by
  unfold plLine
  split
  · unfold plVrtx
    refine bind_ne_diverge ?_ fun _ => bind_ne_diverge (readPoint_ne_diverge _ _) fun _ => by simp
    split
    · exact bind_ne_diverge (index_ne_diverge _ _) fun _ => readIndex_ne_diverge _
    · simp
  split
  · unfold plSeg
    exact bind_ne_diverge (index_ne_diverge _ _) fun _ => bind_ne_diverge (readIndex_ne_diverge _) fun _ =>
      bind_ne_diverge (index_ne_diverge _ _) fun _ => bind_ne_diverge (readIndex_ne_diverge _) fun _ => by simp
  · simp

theorem readIlinesLoop_fwd (ec : ECurve D) (f : File) : Fwd f (readIlinesLoop ec f) := by
  induction f generalizing ec with
  | nil => exact Fwd.ok _ (by simp)
  | cons l ls ih =>
    rw [readIlinesLoop]
    split
    · exact Fwd.ub
    · split
      · exact Fwd.ok _ (by simp)
      · exact Fwd.bind_pure (plLine_ne_diverge _ _ _) fun t => (ih t).mono (by simp)

theorem readECurve_fwd (f : File) : FwdObj f (readECurve f : Res (Option (ECurve D × File))) := by
  unfold readECurve
  split
  · exact ⟨by simp, by simp⟩
  · next l g e =>
    have hl := gotoKeyword?_length e
    have : Fwd g (do
        let (name, f) ← readHeader g
        let (crs, f) ← readCrs f
        (readIlines { name, crs } f : Res (ECurve D × File))) :=
      (readHeader_fwd g).bind fun _ _ _ => (readCrs_fwd _).bind fun _ _ _ => (gotoKeyword_fwd _ _).bind fun _ _ _ => readIlinesLoop_fwd _ _
    have h2 := FwdObj.of_fwd this hl
    simpa only [Res.bind_assoc'] using h2

theorem loadPLLoop_terminates (n : Nat) (m : Loaded Edge D) (f : File) (h : f.length < n) : loadPLLoop n m f ≠ .diverge := by
  induction n generalizing m f with
  | zero => omega
  | succ n ih =>
    rw [loadPLLoop]
    have hf := readECurve_fwd (D := D) f
    refine bind_ne_diverge' hf.1 ?_
    rintro (_ | ⟨ec, f'⟩) hr
    · simp
    · have := hf.2 _ _ hr
      simp only
      refine bind_ne_diverge ?_ fun m' => ih m' f' (by omega)
      unfold buildCurve
      refine bind_ne_diverge (mapM'_ne_diverge fun e => ?_) fun _ => by simp
      simp only
      split <;> simp

/-- **Reading a `.pl` file ends**, for every text. -/
theorem loadPL_terminates (f : File) : (loadPL f : Res (Loaded Edge D)) ≠ .diverge := loadPLLoop_terminates _ _ _ (by omega)

/-- A file that is cut after its third line is read to its end, and the reader stops there. -/
example : (loadPL [cs!"GOCAD PLine 1", cs!"HEADER {", cs!"name:a"] : Res (Loaded Edge Int)) = .throw := by decide +kernel

end Verif.Props.GocadEnds
