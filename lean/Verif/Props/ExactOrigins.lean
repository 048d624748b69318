import Verif.Props.VoxetGrid
import Verif.Props.Wells

/-!
# Exactly when voxets are where they should be, their data files are announced, and wells have all their records (C20, C22, C150)
-/

set_option linter.unusedSectionVars false

namespace Verif.Props.ExactOrigins

open Verif Verif.Res Verif.Gocad Verif.GocadMesh Verif.Wells Verif.Voxet Verif.GocadCut Verif.Props.GocadTruncated Verif.Props.VoxetGrid

variable {D : Type} [Num D]

/-! ## Depths of voxets -/

/-- **C150, exactly**: the third coordinate of the origin is right when the third axis points upwards, or when the coordinate is its own opposite. -/
theorem depths_iff {g : Geo D} {folder : Str} {f f0 f1 f2 rest : File} {grid : Grid D} {path l : Str} {name : Option Str} {crs : Crs}
    {o u v w : Pt D} {n : Ijk} (h : loadHead g folder f = .ok (grid, path)) (h0 : FirstWith cs!"GOCAD Voxet" f l f0)
    (h1 : readHeader f0 = .ok (name, f1)) (h2 : readCrs f1 = .ok (crs, f2)) (ha : Axes f2 o u v w n rest) :
    grid.origin.z = signed crs.zPos o.z ↔ crs.zPos = true ∨ Num.neg o.z = o.z := by
  obtain ⟨e, _⟩ := depths_read_partial h h0 h1 h2 ha
  rw [show grid.origin = o by rw [e]]
  unfold signed
  cases crs.zPos with
  | true => simp
  | false => simp [eq_comm]

/-! ## The data files of voxets -/

/-- The record that the reader takes is the only one of the file. -/
theorem record_of {g : Geo D} {folder : Str} {f : File} {grid : Grid D} {path : Str} (h : loadHead g folder f = .ok (grid, path))
    (hone : (f.filter fun l => startsWith l cs!"ASCII_DATA_FILE").length ≤ 1) : ∃ record, dataFile f = some record ∧ path = folder ++ stripCr record := by
  obtain ⟨l0, f0, name, f1, crs, f2, f3, record, h0, h1, h2, h3, h4, rfl⟩ := head_parts.1 h
  refine ⟨record, ?_, rfl⟩
  obtain ⟨p, e0, _⟩ := h0
  obtain ⟨u1, e1⟩ := readHeader_cut.suffix h1
  obtain ⟨u2, e2⟩ := readCrs_cut.suffix h2
  obtain ⟨u3, e3⟩ := Voxet.initGrid_suffix h3
  dsimp only at e1 e2 e3
  have ef : f = (p ++ l0 :: (u1 ++ (u2 ++ u3))) ++ f3 := by simp [e0, e1, e2, e3]
  generalize p ++ l0 :: (u1 ++ (u2 ++ u3)) = u at ef
  unfold dataFile at h4
  cases hk : gotoKeyword? cs!"ASCII_DATA_FILE" f3 with
  | none => rw [hk] at h4; cases h4
  | some q =>
    obtain ⟨l, rest⟩ := q
    rw [hk] at h4
    obtain ⟨pre, e', hpre, hl⟩ := gotoKeyword?_some hk
    have hu : ∀ x ∈ u, startsWith x cs!"ASCII_DATA_FILE" = false := by
      intro x hx
      cases hx' : startsWith x cs!"ASCII_DATA_FILE" with
      | false => rfl
      | true =>
        exfalso
        rw [ef, e', List.filter_append, List.filter_append, List.filter_cons, if_pos hl] at hone
        have : x ∈ u.filter fun l => startsWith l cs!"ASCII_DATA_FILE" := List.mem_filter.2 ⟨hx, hx'⟩
        have := List.length_pos_of_mem this
        simp only [List.length_append, List.length_cons] at hone
        omega
    have hf : gotoKeyword? cs!"ASCII_DATA_FILE" f = some (l, rest) := by
      rw [ef, e', ← List.append_assoc]
      apply gotoKeyword?_skip' _ hl
      intro x hx
      rcases List.mem_append.1 hx with hx | hx
      · exact hu x hx
      · exact hpre x hx
    unfold dataFile
    rw [hf]
    exact h4

/-- **C22, exactly**, for files with one record: the announced file is the one that is read when the `.vo` file is in the current folder and the record does
not end with a carriage return. -/
theorem announced_iff {g : Geo D} {fs : Str → Option File} {folder : Str} {f : File} {grid : Grid D} {path : Str} (h : loadHead g folder f = .ok (grid, path))
    (hone : (f.filter fun l => startsWith l cs!"ASCII_DATA_FILE").length ≤ 1) (hfo : folder = [] ∨ folder.getLast? = some '/') {record : Str}
    (hr : dataFile f = some record) : Voxet.Announced g fs folder f ↔ folder = [] ∧ record.getLast? ≠ some '\r' := by
  obtain ⟨r, e, hp⟩ := record_of h hone
  rw [hr] at e
  cases e
  have key : folder ++ stripCr record = record ↔ folder = [] ∧ record.getLast? ≠ some '\r' := by
    by_cases hc : record.getLast? = some '\r'
    · have hs : stripCr record = record.dropLast := by unfold stripCr; rw [hc]; rfl
      obtain ⟨q, rfl⟩ : ∃ q, record = q ++ ['\r'] := by
        have hne : record ≠ [] := by intro e; rw [e] at hc; cases hc
        rw [List.getLast?_eq_some_getLast hne] at hc
        exact ⟨record.dropLast, by rw [← Option.some.inj hc]; exact (List.dropLast_append_getLast hne).symm⟩
      rw [hs, List.dropLast_concat]
      constructor
      · intro e
        exfalso
        rcases hfo with rfl | hl
        · have := congrArg List.length e
          simp at this
        · -- the folder has one character, the first one of the record, which are all carriage returns
          have hlen := congrArg List.length e
          rw [List.length_append, List.length_append, List.length_singleton] at hlen
          obtain ⟨c, rfl⟩ : ∃ c, folder = [c] := List.length_eq_one_iff.1 (by omega)
          cases hl
          have hall : ∀ n : Nat, ∀ q : Str, q.length = n → ['/'] ++ q = q ++ ['\r'] → False := by
            intro n
            induction n with
            | zero => intro q hq e; rw [List.length_eq_zero_iff.1 hq] at e; exact absurd e (by decide)
            | succ n ih =>
              intro q hq e
              cases q with
              | nil => cases hq
              | cons a q =>
                simp only [List.cons_append, List.nil_append, List.cons.injEq] at e
                obtain ⟨rfl, e⟩ := e
                exact ih q (by simpa using hq) e
          exact hall _ q rfl e
      · rintro ⟨_, hn⟩
        exact absurd (by simp) hn
    · have hs : stripCr record = record := by
        unfold stripCr
        split
        · rename_i e; exact absurd e hc
        · rfl
      rw [hs]
      constructor
      · intro e
        have := congrArg List.length e
        rw [List.length_append] at this
        exact ⟨List.length_eq_zero_iff.1 (by omega), hc⟩
      · rintro ⟨rfl, _⟩
        rfl
  rw [← key]
  unfold Voxet.Announced additionalFiles
  rw [hr]
  constructor
  · intro ha
    have := ha grid path h
    rw [Option.map_some, Option.some.injEq, Prod.mk.injEq] at this
    rw [← hp, ← this.1]
  · intro e grid' path' h'
    rw [h] at h'
    simp only [Res.ok.injEq, Prod.mk.injEq] at h'
    rw [← h'.2, hp, e]
    rfl

/-- The hypotheses hold for the example file. -/
example : ∃ grid path record, loadHead Voxet.geoZ [] Voxet.voFile = .ok (grid, path) ∧ (Voxet.voFile.filter fun l => startsWith l cs!"ASCII_DATA_FILE").length ≤ 1 ∧
    dataFile Voxet.voFile = some record := ⟨⟨some cs!"v", ⟨0, 0, 0⟩, (2, 2, 1), (2, 1, 3), []⟩, cs!"v@@", cs!"v@@", by decide +kernel⟩

/-! ## Records of wells -/

/-- **C20, exactly**, for a file with a first record and others: the polyline goes through every record exactly when the first one is the well head. -/
theorem wl_records_iff [Add D] {name : Option Str} (hname : ∀ n, name = some n → GoodObjectName n) (z : Bool) {wref kw a b c : Str} {r : Pt D}
    (hw : startsWith wref cs!"WREF" = true) (hs : split wref = [kw, a, b, c]) (h1 : Num.parse a = some r.x) (h2 : Num.parse b = some r.y)
    (h3 : Num.parse c = some r.z) (between : File) (hb : ∀ l ∈ between, startsWith l cs!"PATH" = false) (p0 : Wells.Path D) (hp0 : p0.Good)
    (paths : List (Wells.Path D)) (hp : ∀ p ∈ paths, p.Good) (rest : File) (hr : ∀ l ∈ rest.head?, startsWith l cs!"PATH" = false) :
    (∃ w, loadWl (Wells.fileWL name z wref between (p0 :: paths) rest) = .ok w ∧ w.points = (p0 :: paths).map (Wells.Path.point z ⟨r.x, r.y, signed z r.z⟩)) ↔
      p0.point z ⟨r.x, r.y, signed z r.z⟩ = ⟨r.x, r.y, signed z r.z⟩ := by
  rw [Wells.wl_loaded hname z hw hs h1 h2 h3 between hb p0 hp0 paths hp rest hr]
  constructor
  · rintro ⟨w, e, hw⟩
    cases e
    rw [List.map_cons, List.cons.injEq] at hw
    exact hw.1.symm
  · intro e
    exact ⟨_, rfl, by rw [List.map_cons, e]⟩

/-- **C20 fails for all files with records**: the polyline never has the well reference and then every record. -/
theorem wl_never_all [Add D] {name : Option Str} (hname : ∀ n, name = some n → GoodObjectName n) (z : Bool) {wref kw a b c : Str} {r : Pt D}
    (hw : startsWith wref cs!"WREF" = true) (hs : split wref = [kw, a, b, c]) (h1 : Num.parse a = some r.x) (h2 : Num.parse b = some r.y)
    (h3 : Num.parse c = some r.z) (between : File) (hb : ∀ l ∈ between, startsWith l cs!"PATH" = false) (p0 : Wells.Path D) (hp0 : p0.Good)
    (paths : List (Wells.Path D)) (hp : ∀ p ∈ paths, p.Good) (rest : File) (hr : ∀ l ∈ rest.head?, startsWith l cs!"PATH" = false) (ref : Pt D) :
    ¬∃ w, loadWl (Wells.fileWL name z wref between (p0 :: paths) rest) = .ok w ∧ w.points = ref :: (p0 :: paths).map (Wells.Path.point z ref) := by
  rw [Wells.wl_loaded hname z hw hs h1 h2 h3 between hb p0 hp0 paths hp rest hr]
  rintro ⟨w, e, hw⟩
  cases e
  have := congrArg List.length hw
  simp at this

end Verif.Props.ExactOrigins
