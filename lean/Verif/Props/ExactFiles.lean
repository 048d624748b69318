import Verif.Props.GrdeclDims
import Verif.Props.LsoCut
import Verif.Props.Shp

/-!
# Exactly which grids, cut files and rings are read as they should be (C26, C68, C110, C131)
-/

set_option linter.unusedSectionVars false

namespace Verif.Props.ExactFiles

open Verif Res

/-! ## Numbers of values (C26) -/

section Counts

open Verif.Grdecl Verif.Props.GrdeclText

variable {D : Type} [Num D] [Add D] [Sub D] [Mul D] [Div D] [One D]

/-- **C26, exactly**: a file with a section of pillars and one of depths is loaded when it has all the depths and no more pillars than announced, and is
undefined behaviour otherwise; it is never refused. -/
theorem counts_iff {merge : List (Pt D) → List (Pt D) × List Nat} (hm : ∀ pts, (merge pts).2.length = pts.length) {fs : Str → Option File} {p : Parts} {nx ny nz : Nat}
    {ps : List (Pillar D)} {ds : List D} (h : p.Good nx ny nz ps ds) (hW : 8 * nx * ny * nz < W) (hP : (nx + 1) * (ny + 1) < W) :
    ((∃ s, (load merge fs p.file : Res (Solid D)) = .ok s) ↔ ps.length ≤ (nx + 1) * (ny + 1) ∧ ds.length = 8 * nx * ny * nz) ∧
    ((load merge fs p.file : Res (Solid D)) = .ub ↔ (nx + 1) * (ny + 1) < ps.length ∨ ds.length ≠ 8 * nx * ny * nz) := by
  by_cases hg : ps.length ≤ (nx + 1) * (ny + 1) ∧ ds.length = 8 * nx * ny * nz
  · obtain ⟨s, e⟩ := too_few_pillars (fs := fs) h hW hP hg.1 hg.2 hm
    refine ⟨⟨fun _ => hg, fun _ => ⟨s, e⟩⟩, ⟨fun h' => (by rw [e] at h'; cases h'), fun h' => ?_⟩⟩
    rcases h' with h' | h'
    · omega
    · exact absurd hg.2 h'
  · have hb : (nx + 1) * (ny + 1) < ps.length ∨ ds.length ≠ 8 * nx * ny * nz := by
      by_cases h1 : (nx + 1) * (ny + 1) < ps.length
      · exact Or.inl h1
      · exact Or.inr fun h2 => hg ⟨by omega, h2⟩
    have e : (load merge fs p.file : Res (Solid D)) = .ub := by
      by_cases hmany : (nx + 1) * (ny + 1) < ps.length ∨ 8 * nx * ny * nz < ds.length
      · exact too_many h hW hP hmany
      · refine too_few_depths h hW hP ?_
        rcases hb with h1 | h1
        · exact absurd (Or.inl h1) hmany
        · have : ¬8 * nx * ny * nz < ds.length := fun h2 => hmany (Or.inr h2)
          omega
    refine ⟨⟨fun ⟨s, h'⟩ => (by rw [e] at h'; cases h'), fun h' => absurd h' hg⟩, ⟨fun _ => hb, fun _ => e⟩⟩

example : ∃ s, (load (fun pts => (pts, List.range pts.length)) (fun _ => none) parts1.file : Res (Solid Int)) = .ok s :=
  (counts_iff (by intro pts; simp) parts1_good (by decide) (by decide)).1.2 (by decide)

end Counts

/-! ## Dimensions (C110) -/

section Dimensions

open Verif.Grdecl Verif.Props.GrdeclDims

/-- Two ways to cut a file before its first line with a keyword are the same. -/
theorem first_unique {key : Str} {pre pre' : File} {a b : Str} {u v : File} (h : pre ++ a :: u = pre' ++ b :: v) (hp : ∀ l ∈ pre, startsWith l key = false)
    (ha : startsWith a key = true) (hp' : ∀ l ∈ pre', startsWith l key = false) (hb : startsWith b key = true) : a :: u = b :: v := by
  rcases List.append_eq_append_iff.1 h with ⟨w, e1, e2⟩ | ⟨w, e1, e2⟩
  · cases w with
    | nil => exact e2
    | cons x w =>
      cases e2
      have := hp' a (by rw [e1]; simp)
      rw [ha] at this
      cases this
  · cases w with
    | nil => exact e2.symm
    | cons x w =>
      cases e2
      have := hp b (by rw [e1]; simp)
      rw [hb] at this
      cases this

/-- **C110, exactly**: the dimensions are those of the section exactly when no comment of the section has the letter `F` and the line of the numbers has it. -/
theorem dimensions_iff {f mid rest : File} {line : Str} {d : Nat × Nat × Nat} (h : Section f mid line rest) (hd : ThreeNumbers line d) :
    readDims f = .ok (d, rest) ↔ (∀ l ∈ mid, 'F' ∉ l) ∧ 'F' ∈ line := by
  constructor
  · intro hr
    obtain ⟨pre', mid', line', key, tail, hf', hp', hk, hkey, hmid, hline, _⟩ := dimensions_from hr
    obtain ⟨pre, hf, hp⟩ := h.file
    have e : (pre ++ cs!"SPECGRID" :: (mid ++ [line])) ++ rest = (pre' ++ key :: tail) ++ rest := by
      rw [← hk]
      simp only [List.append_assoc, List.cons_append, List.nil_append] at hf hf' ⊢
      rw [← hf, ← hf']
    have e' := first_unique (List.append_cancel_right e) hp (by decide) hp' hkey
    rw [← hk, ← List.cons_append] at e'
    have hl : line = line' := by simpa using List.append_inj_right' e' rfl
    have hm : cs!"SPECGRID" :: mid = mid' := List.append_inj_left' e' rfl
    exact ⟨fun l hl => hmid l (by rw [← hm]; simp [hl]), hl ▸ hline⟩
  · rintro ⟨hm, hl⟩
    exact dimensions_partial h hd hm hl

example : Section [cs!"SPECGRID", cs!"-- cells", cs!"3 4 5 1 F /"] [cs!"-- cells"] cs!"3 4 5 1 F /" [] ∧ ThreeNumbers cs!"3 4 5 1 F /" (3, 4, 5) :=
  ⟨⟨⟨[], rfl, by simp⟩, by
    intro l hl
    rw [List.mem_singleton.1 hl]
    exact Or.inr ⟨cs!"--", [cs!"cells"], by decide, by decide⟩⟩, _, _, _, _, rfl, by decide, by decide, by decide⟩

end Dimensions

/-! ## Files that are read for ever (C131) -/

/-- **C131, exactly, for files cut after the line `MODEL`**: without line feed, they are read for ever exactly when their last line opens a surface, a face
or a block. -/
theorem endless_iff {D : Type} [Num D] [LawfulNum D] {m : Lso.Model D} (h : Lso.Loadable m) {sides : Sides.AllSides} {f : File}
    (hf : Lso.saveLso m sides = .ok f) {n : Nat} (hn : ∃ l ∈ f.take n, startsWith l cs!"MODEL" = true) :
    Unfinished.loadLso (D := D) false (f.take n) = .diverge ↔ Props.LsoCut.opens ((f.take n).getLastD []) = true := by
  rw [Props.LsoCut.cut_unfinished h hf hn]
  obtain ⟨_, L', _, e, _⟩ := Props.LsoCut.cut_loads h hf hn
  rw [e]
  split <;> simp_all

/-! ## Rings (C68) -/

/-- **C68, exactly, for rings of at most 255 points**: a ring becomes one polygon through all its points exactly when it is closed. -/
theorem ring_iff {P : Type} [DecidableEq P] (tri : List P → List (List Nat)) (r : Nat) (st : Shp.State P) {pts : List P} (h1 : pts ≠ []) (h2 : pts.length ≤ 255) :
    (∃ m u c, Shp.readRing tri r st pts = .ok (m, u) ∧ m.cells = st.1.cells ++ [c] ∧ Props.Shp.corners m c = (Shp.distinct pts).map some) ↔ pts.head? = pts.getLast? := by
  constructor
  · rintro ⟨m, u, c, e, hc, hk⟩
    by_contra hn
    obtain ⟨m', u', c', e', _, hc', hk'⟩ := Props.Shp.open_ring_loses tri r st hn h2
    rw [e] at e'
    cases e'
    rw [hc] at hc'
    cases List.append_cancel_left hc'
    rw [hk] at hk'
    have := congrArg List.length hk'
    unfold Shp.distinct at this
    rw [if_neg hn] at this
    simp only [List.length_map, List.length_dropLast] at this
    have := List.length_pos_iff.2 h1
    omega
  · intro hc
    obtain ⟨m, u, c, e, _, hc', hk⟩ := Props.Shp.closed_ring tri r st hc h1 h2
    refine ⟨m, u, c, e, hc', ?_⟩
    unfold Shp.distinct
    rw [if_pos hc]
    exact hk

end Verif.Props.ExactFiles
