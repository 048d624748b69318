import Verif.Props.MlLoads

/-!
# C200: other lines among the records of ML files

Which lines can be put between the records of the components of a `.ml` file without changing what is loaded.
-/

set_option linter.unusedSectionVars false

namespace Verif.Props.MlOthers

open Verif Verif.Gocad Verif.GocadMesh Verif.Ml Res
open Verif.Props.MlOutcomes (untilZero_iff surfaceToken_none universeToken_none layerToken_none)

variable {D : Type} [Num D]

/-! ## Where a line is -/

/-- Where a line is: between the records, in a list of surfaces or in a list of blocks. -/
inductive Place
  | between
  | surfaces
  | blocks
  deriving DecidableEq, Repr

/-- Where the next line is: a region is followed by a list of surfaces, a layer and a fault block by a list of blocks, and a list ends with the line of the
first 0. -/
def next (p : Place) (l : Str) : Place :=
  match p with
  | .between =>
    if (split l).head? = some cs!"REGION" then .surfaces
    else if (split l).head? = some cs!"LAYER" ∨ (split l).head? = some cs!"FAULT_BLOCK" then .blocks
    else .between
  | .surfaces => if ∃ w ∈ split l, parseInt w = some 0 then .between else .surfaces
  | .blocks => if ∃ w ∈ split l, parseIndex w = some 0 then .between else .blocks

/-- Where the line after some lines is. -/
def after (ls : File) : Place := ls.foldl next .between

/-- The place of each loop of the reader. -/
def placeOf : Mode → Place
  | .top => .between
  | .outside => .surfaces
  | .block _ _ => .surfaces
  | .layer _ _ => .blocks
  | .faultBlock _ _ => .blocks

theorem closed_iff {g : Str → Res (Option Nat)} {zero : Str → Prop} (hz : ∀ w, g w = .ok none ↔ zero w) {acc : List Nat} {ts : List Str} {r : List Nat × Bool}
    (h : untilZero g acc ts = .ok r) : r.2 = true ↔ ∃ w ∈ ts, zero w := by
  rcases untilZero_iff.1 h with ⟨h1, a, z, b, vs, h2, h3, _⟩ | ⟨h1, vs, h2, _⟩
  · refine ⟨fun _ => ⟨z, by rw [h2]; simp, (hz z).1 h3⟩, fun _ => h1⟩
  · rw [h1]
    refine ⟨fun h => (Bool.false_ne_true h).elim, ?_⟩
    rintro ⟨w, hw, hzw⟩
    obtain ⟨i, hi, rfl⟩ := List.getElem_of_mem hw
    have := h2.get hi (by rw [← h2.length_eq]; exact hi)
    rw [List.get_eq_getElem, (hz _).2 hzw] at this
    cases this

theorem step_place {st st' : RState} {mode mode' : Mode} {l : Str} (h : step (st, mode) l = .ok (st', mode')) : placeOf mode' = next (placeOf mode) l := by
  cases mode with
  | top =>
    rw [step, topLine.eq_def] at h
    cases hs : split l with
    | nil => rw [hs] at h; cases h
    | cons k ws =>
      rw [hs] at h
      cases ws with
      | nil => cases h
      | cons w ws =>
        dsimp only at h
        simp only [placeOf, next, hs, List.head?_cons, Option.some.injEq]
        by_cases h1 : k = cs!"TSURF"
        · rw [if_pos h1] at h
          cases h
          rw [h1, if_neg (by decide), if_neg (by decide)]
        rw [if_neg h1] at h
        by_cases h2 : k = cs!"TFACE"
        · rw [if_pos h2] at h
          obtain ⟨x, _, h⟩ := bind_eq_ok.1 h
          cases h
          rw [h2, if_neg (by decide), if_neg (by decide)]
        rw [if_neg h2] at h
        by_cases h3 : k = cs!"REGION"
        · rw [if_pos h3] at h
          obtain ⟨x, hx, h⟩ := bind_eq_ok.1 h
          cases h
          rw [if_pos h3]
          unfold readRegionKeyword at hx
          obtain ⟨_, _, hx⟩ := bind_eq_ok.1 hx
          rw [pure_eq] at hx
          rw [← Res.ok.inj hx]
          by_cases hu : readName (List.drop 1 (w :: ws)) = cs!"Universe"
          · rw [if_pos hu]
          · rw [if_neg hu]
        rw [if_neg h3] at h
        rw [if_neg h3]
        by_cases h4 : k = cs!"LAYER"
        · rw [if_pos h4] at h
          cases h
          rw [if_pos (.inl h4)]
        rw [if_neg h4] at h
        by_cases h5 : k = cs!"FAULT_BLOCK"
        · rw [if_pos h5] at h
          cases h
          rw [if_pos (.inr h5)]
        rw [if_neg h5] at h
        cases h
        rw [if_neg (by rintro (h | h); exact h4 h; exact h5 h)]
  | outside =>
    rw [step] at h
    obtain ⟨r, hr, h⟩ := bind_eq_ok.1 h
    have hc := closed_iff (zero := fun w => parseInt w = some 0) (universeToken_none st) hr
    dsimp only at h
    rw [pure_eq] at h
    cases h
    simp only [placeOf, next]
    by_cases h2 : r.2 = true
    · rw [if_pos h2, if_pos (hc.1 h2)]
    · rw [if_neg h2, if_neg (fun h => h2 (hc.2 h))]
  | block n acc =>
    rw [step] at h
    obtain ⟨r, hr, h⟩ := bind_eq_ok.1 h
    have hc := closed_iff (zero := fun w => parseInt w = some 0) surfaceToken_none hr
    dsimp only at h
    simp only [placeOf, next]
    by_cases h2 : r.2 = true
    · rw [if_pos h2] at h
      obtain ⟨x, _, h⟩ := bind_eq_ok.1 h
      cases h
      rw [if_pos (hc.1 h2)]
    · rw [if_neg h2] at h
      cases h
      rw [if_neg (fun h => h2 (hc.2 h))]
  | layer n acc =>
    rw [step] at h
    obtain ⟨r, hr, h⟩ := bind_eq_ok.1 h
    have hc := closed_iff (zero := fun w => parseIndex w = some 0) (layerToken_none st) hr
    dsimp only at h
    simp only [placeOf, next]
    by_cases h2 : r.2 = true
    · rw [if_pos h2] at h
      cases h
      rw [if_pos (hc.1 h2)]
    · rw [if_neg h2] at h
      cases h
      rw [if_neg (fun h => h2 (hc.2 h))]
  | faultBlock n acc =>
    rw [step] at h
    obtain ⟨r, hr, h⟩ := bind_eq_ok.1 h
    have hc := closed_iff (zero := fun w => parseIndex w = some 0) (layerToken_none st) hr
    dsimp only at h
    simp only [placeOf, next]
    by_cases h2 : r.2 = true
    · rw [if_pos h2] at h
      cases h
      rw [if_pos (hc.1 h2)]
    · rw [if_neg h2] at h
      cases h
      rw [if_neg (fun h => h2 (hc.2 h))]

theorem run_place {ls : File} : ∀ {s s' : RState × Mode}, run s ls = .ok s' → placeOf s'.2 = ls.foldl next (placeOf s.2) := by
  induction ls with
  | nil => intro s s' h; cases h; rfl
  | cons l ls ih =>
    intro s s' h
    rw [run_cons] at h
    obtain ⟨x, h1, h⟩ := bind_eq_ok.1 h
    rw [List.foldl_cons, ← step_place h1]
    exact ih h

/-! ## Lines that do not matter -/

/-- A line that is no record: it does not start with `END`, has two words, and its first word is no keyword. -/
structure Other (l : Str) : Prop where
  goesOn : startsWith l cs!"END" = false
  words : 2 ≤ (split l).length
  keyword : ∀ k ∈ (split l).head?, k ∉ MlOutcomes.keywords

theorem other_step {l : Str} (h : Other l) (st : RState) : step (st, .top) l = .ok (st, .top) := by
  obtain ⟨_, h2, h3⟩ := h
  rw [step, topLine.eq_def]
  cases hs : split l with
  | nil => rw [hs] at h2; simp at h2
  | cons k ws =>
    cases ws with
    | nil => rw [hs] at h2; simp at h2
    | cons w ws =>
      have hk := h3 k (by rw [hs]; rfl)
      simp only [MlOutcomes.keywords, List.mem_cons, List.not_mem_nil, or_false, not_or] at hk
      dsimp only
      rw [if_neg hk.1, if_neg hk.2.1, if_neg hk.2.2.1, if_neg hk.2.2.2.1, if_neg hk.2.2.2.2]

theorem other_lines {a b : File} {l : Str} (ha : NoEnd a) (hp : after a = .between) (hl : Other l) (st : RState) :
    readLines (st, .top) (a ++ l :: b) = readLines (st, .top) (a ++ b) := by
  rw [readLines_append ha, readLines_append ha]
  cases hr : run (st, .top) a with
  | throw => rfl
  | ub => rfl
  | diverge => rfl
  | ok s =>
    have := run_place hr
    obtain ⟨st', mode⟩ := s
    have hm : mode = .top := by
      rw [show a.foldl next (placeOf Mode.top) = after a from rfl, hp] at this
      cases mode <;> first | rfl | cases this
    rw [ok_bind, ok_bind, hm]
    rw [readLines.eq_def]
    simp only []
    rw [if_neg (by rw [hl.goesOn]; simp), other_step hl, ok_bind]

/-- Lines with the title, the header and the coordinate system of a file, whatever follows. -/
def Begins (p : File) : Prop := ∃ name crs, ∀ g, (do
  let (_, f) ← gotoKeyword cs!"GOCAD Model3d" (p ++ g)
  let (name, f) ← readHeader f
  let (crs, f) ← readCrs f
  pure (name, crs, f)) = .ok (name, crs, g)

theorem load_begins {p : File} (h : Begins p) : ∃ name, ∀ g, (loadMl (p ++ g) : Res (Loaded D)) = (do
    let (st, f) ← readLines ({}, .top) g
    let m : Loaded D ← createTsurfs name st
    let meshes ← readSurfaces st.tsurfs f
    pure { m with meshes }) := by
  obtain ⟨name, crs, h⟩ := h
  refine ⟨name, fun g => ?_⟩
  have := h g
  obtain ⟨x, h1, this⟩ := bind_eq_ok.1 this
  obtain ⟨y, h2, this⟩ := bind_eq_ok.1 this
  obtain ⟨z, h3, this⟩ := bind_eq_ok.1 this
  cases this
  unfold loadMl
  rw [h1, ok_bind]
  dsimp only
  rw [h2, ok_bind]
  rw [h3, ok_bind]

/-- **The full property**: a line whose first word is no keyword does not change the outcome of loading, wherever it is between the records. -/
def OthersIgnored (D : Type) [Num D] : Prop := ∀ (p a b : File) (l : Str), Begins p → NoEnd a → after a = .between → (∀ k ∈ (split l).head?, k ∉ MlOutcomes.keywords) →
  (loadMl (p ++ (a ++ l :: b)) : Res (Loaded D)) = loadMl (p ++ (a ++ b))

/-- What holds: lines with two words, which do not start with `END`, do not change the outcome of loading. -/
theorem others_partial {p a b : File} {l : Str} (hp : Begins p) (ha : NoEnd a) (hb : after a = .between) (hl : Other l) :
    (loadMl (p ++ (a ++ l :: b)) : Res (Loaded D)) = loadMl (p ++ (a ++ b)) := by
  obtain ⟨name, h⟩ := load_begins (D := D) hp
  rw [h, h, other_lines ha hb hl]

/-- **Blank lines**: a blank line, or one of a single word, makes the loading undefined, wherever it is between the records, unless the loading of the lines
before it already fails. -/
theorem short_line {p a b : File} {l : Str} (hp : Begins p) (ha : NoEnd a) (hb : after a = .between) (hl : startsWith l cs!"END" = false) (hw : (split l).length ≤ 1)
    {st : RState × Mode} (hr : run ({}, .top) a = .ok st) : (loadMl (p ++ (a ++ l :: b)) : Res (Loaded D)) = .ub := by
  obtain ⟨name, h⟩ := load_begins (D := D) hp
  rw [h, readLines_append ha, hr, ok_bind]
  have := run_place hr
  obtain ⟨st', mode⟩ := st
  have hm : mode = .top := by
    rw [show a.foldl next (placeOf Mode.top) = after a from rfl, hb] at this
    cases mode <;> first | rfl | cases this
  have hs : step (st', .top) l = .ub := by
    rw [step, topLine.eq_def]
    rcases hsp : split l with _ | ⟨k, _ | ⟨w, ws⟩⟩
    · rfl
    · rfl
    · rw [hsp] at hw; simp at hw
  rw [hm, readLines.eq_def]
  simp only []
  rw [if_neg (by rw [hl]; simp), hs]
  rfl

/-! ## Files that are written -/

theorem begins_written (name : Option Str) : Begins (cs!"GOCAD Model3d 1" :: (writeHeader name ++ writeCrs {})) := by
  refine ⟨name.map fun n => readName (split n), {}, fun g => ?_⟩
  rw [List.cons_append, gotoKeyword_here (by rfl), ok_bind]
  dsimp only
  rw [List.append_assoc, readHeader_writeHeader, ok_bind]
  dsimp only
  rw [readCrs_default, ok_bind]
  rfl

/-- A small file. -/
def start : File := cs!"GOCAD Model3d 1" :: (writeHeader (some cs!"m") ++ writeCrs {})

theorem not_ignored : ¬OthersIgnored Int := by
  intro h
  have := h start [] [cs!"END"] cs!"" (begins_written _) (by simp [NoEnd]) rfl (by decide)
  revert this
  have e1 : (match (loadMl (start ++ ([] ++ cs!"" :: [cs!"END"])) : Res (Loaded Int)) with | .ub => true | _ => false) = true := by decide +kernel
  have e2 : (match (loadMl (start ++ ([] ++ [cs!"END"])) : Res (Loaded Int)) with | .ub => false | _ => true) = true := by decide +kernel
  intro e
  rw [e] at e1
  cases hl : (loadMl (start ++ ([] ++ [cs!"END"])) : Res (Loaded Int)) <;> rw [hl] at e1 e2 <;> simp at e1 e2

/-- A word that starts with `END` ends the records: the surface after it is not read. -/
theorem early_end : (match (loadMl (start ++ ([cs!"ENDING soon"] ++ [cs!"TSURF a", cs!"TFACE 1 boundary a", cs!"END"])) : Res (Loaded Int)) with
    | .ok L => decide (L.surfaces = [])
    | _ => false) = true := by decide +kernel

/-! ### Instances -/

example : Other cs!"VERSION 4.1" ∧ Other cs!"# a comment" ∧ Other cs!"  1.5 2 3" ∧ ¬Other cs!"#comment" := by
  refine ⟨⟨by decide, by decide, by decide⟩, ⟨by decide, by decide, by decide⟩, ⟨by decide, by decide, by decide⟩, fun h => absurd h.words (by decide)⟩

/-- Comments between the records of a file with a surface and a block. -/
example (b : File) : (loadMl (start ++ ([cs!"TSURF a", cs!"TFACE 1 boundary a", cs!"REGION 2 b", cs!"+1 -1 0"] ++ cs!"# a comment" :: b)) : Res (Loaded Int)) =
    loadMl (start ++ ([cs!"TSURF a", cs!"TFACE 1 boundary a", cs!"REGION 2 b", cs!"+1 -1 0"] ++ b)) :=
  others_partial (begins_written _) (by unfold NoEnd; decide) (by decide +kernel) ⟨by decide, by decide, by decide⟩

end Verif.Props.MlOthers
