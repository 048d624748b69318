import Verif.Props.VoxetGrid
import Verif.Props.VoxetData
import Verif.Props.HeadersRefused

/-!
# C173: which voxets load, and which are refused

Whole `.vo` files with their data file, for every file and every file system.  Theorems about `Model.Voxet`.
-/

namespace Verif.Props.VoxetRefused

open Verif Verif.Gocad Verif.GocadMesh Verif.Voxet Verif.Radix Res
open Verif.Props.VoxetGrid (FirstWith Frame Axes ShortSize IsSize lengths grid_read grid_ub grid_outcomes initGrid_frame)
open Verif.Props.VoxetData (Titles Outside data_loaded data_ub data_values data_outcomes voxet_loaded)
open Verif.Props.Voxet (get lastValue Row)
open Verif.Props.HeadersRefused (BadSystem crs_ub_iff)

variable {D : Type} [Num D]

/-! ## The name of the data file -/

/-- The text has the keyword of the record in it. -/
def HasKeyword (s : Str) : Prop := ∃ p q, s = p ++ cs!"ASCII_DATA_FILE " ++ q

theorem unrecord_plain {s : Str} (h1 : '"' ∉ s) (h2 : ¬ HasKeyword s) (t : Str) (ht : t = [] ∨ ∃ u, t = '"' :: u) : unrecord 0 (s ++ t) = s ++ unrecord 0 t := by
  induction s with
  | nil => rfl
  | cons c s ih =>
    have hc : c ≠ '"' := fun e => h1 (by simp [e])
    have hk : startsWith (c :: (s ++ t)) cs!"ASCII_DATA_FILE " = false := by
      cases hb : startsWith (c :: (s ++ t)) cs!"ASCII_DATA_FILE " with
      | false => rfl
      | true =>
        exfalso
        obtain ⟨q, hq⟩ : ∃ q, cs!"ASCII_DATA_FILE " ++ q = (c :: s) ++ t := by
          rw [startsWith, List.isPrefixOf_iff_prefix] at hb
          exact hb
        rcases List.append_eq_append_iff.1 hq with ⟨a, e1, e2⟩ | ⟨a, e1, e2⟩
        · exact h2 ⟨[], a, by rw [e1]; rfl⟩
        · cases a with
          | nil => exact h2 ⟨[], [], by simpa using e1.symm⟩
          | cons x a =>
            rcases ht with rfl | ⟨u, rfl⟩
            · cases e2
            · have hx : x = '"' := by simpa using (List.cons.inj e2).1.symm
              have : '"' ∈ cs!"ASCII_DATA_FILE " := by rw [e1, hx]; simp
              exact absurd this (by decide)
    rw [List.cons_append, unrecord, if_neg (by rw [hk]; simp), if_neg hc]
    rw [ih (fun h => h1 (List.mem_cons_of_mem _ h)) fun ⟨p, q, e⟩ => h2 ⟨c :: p, q, by rw [e]; rfl⟩]
    rfl

/-- The data file is the one named after the keyword. -/
theorem record_name {n : Str} (h1 : '"' ∉ n) (h2 : ¬ HasKeyword n) : unrecord 0 (cs!"ASCII_DATA_FILE " ++ n) = n := by
  have : unrecord 0 (cs!"ASCII_DATA_FILE " ++ n) = unrecord 0 n := by
    simp [unrecord, startsWith]
  rw [this]
  have := unrecord_plain h1 h2 [] (.inl rfl)
  simpa [unrecord] using this

/-- Also between quotes. -/
theorem record_quoted {n : Str} (h1 : '"' ∉ n) (h2 : ¬ HasKeyword n) : unrecord 0 (cs!"ASCII_DATA_FILE \"" ++ n ++ ['"']) = n := by
  have : unrecord 0 (cs!"ASCII_DATA_FILE \"" ++ n ++ ['"']) = unrecord 0 (n ++ ['"']) := by
    simp [unrecord, startsWith]
  rw [this, unrecord_plain h1 h2 ['"'] (.inr ⟨[], rfl⟩)]
  simp [unrecord, startsWith]

/-! ## Whole files -/

/-- The title, the header and the coordinate system of a voxet; `body` are the lines after them. -/
def Headed (f : File) (name : Option Str) (body : File) : Prop :=
  ∃ title f1 f2 crs, FirstWith cs!"GOCAD Voxet" f title f1 ∧ readHeader f1 = .ok (name, f2) ∧ readCrs f2 = .ok (crs, body)

/-- The lines of a voxet: its headers, its axes and the record of its data file. -/
def Described (folder : Str) (f : File) (name : Option Str) (o u v w : Pt D) (n : Ijk) (path : Str) : Prop :=
  ∃ body rest l rest', Headed f name body ∧ Axes body o u v w n rest ∧ FirstWith cs!"ASCII_DATA_FILE" rest l rest' ∧ path = folder ++ stripCr (unrecord 0 l)

theorem goto?_iff {kw : Str} {f : File} {l : Str} {rest : File} : gotoKeyword? kw f = some (l, rest) ↔ FirstWith kw f l rest := by
  rw [← VoxetGrid.goto_iff, gotoKeyword]
  cases gotoKeyword? kw f <;> simp

theorem head_iff {g : Geo D} {folder : Str} {f : File} {grid : Grid D} {path : Str} : loadHead g folder f = .ok (grid, path) ↔
    ∃ name o u v w n, Described folder f name o u v w n path ∧ grid = { name := name, origin := o, size := n, len := lengths g o u v w n } := by
  unfold loadHead Described Headed
  constructor
  · intro h
    cases hg : gotoKeyword? cs!"GOCAD Voxet" f with
    | none => rw [hg] at h; cases h
    | some x =>
      obtain ⟨title, f1⟩ := x
      rw [hg] at h
      dsimp only at h
      obtain ⟨⟨name, f2⟩, e1, h⟩ := bind_eq_ok.1 h
      obtain ⟨⟨crs, f3⟩, e2, h⟩ := bind_eq_ok.1 h
      obtain ⟨⟨grid', f4⟩, e3, h⟩ := bind_eq_ok.1 h
      obtain ⟨record, e4, h⟩ := bind_eq_ok.1 h
      obtain ⟨o, u, v, w, n, ha, rfl⟩ := grid_read.1 e3
      dsimp only at h e4
      obtain ⟨rfl, rfl⟩ := Prod.mk.inj (Res.ok.inj h)
      unfold dataFile at e4
      cases hd : gotoKeyword? cs!"ASCII_DATA_FILE" f4 with
      | none => rw [hd] at e4; cases e4
      | some y =>
        rw [hd] at e4
        have : unrecord 0 y.1 = record := Res.ok.inj e4
        exact ⟨name, o, u, v, w, n, ⟨f3, f4, y.1, y.2, ⟨title, f1, f2, crs, goto?_iff.1 hg, e1, e2⟩, ha, goto?_iff.1 hd, by rw [this]⟩, rfl⟩
  · rintro ⟨name, o, u, v, w, n, ⟨body, rest, l, rest', ⟨title, f1, f2, crs, h1, h2, h3⟩, ha, hd, rfl⟩, rfl⟩
    rw [goto?_iff.2 h1]
    dsimp only
    rw [h2, ok_bind]
    dsimp only
    rw [h3, ok_bind]
    dsimp only
    rw [grid_read.2 ⟨o, u, v, w, n, ha, rfl⟩, ok_bind]
    dsimp only
    rw [dataFile, goto?_iff.2 hd]
    rfl

/-- The headers or the sizes have undefined behaviour. -/
def BadHead (D : Type) [Num D] (f : File) : Prop :=
  (∃ title f1 name f2, FirstWith cs!"GOCAD Voxet" f title f1 ∧ readHeader f1 = .ok (name, f2) ∧ BadSystem f2) ∨
  ∃ name body, ∃ (o u v w : Pt D) (f4 : File) (l : Str) (rest : File), Headed f name body ∧ Frame body o u v w f4 ∧ FirstWith cs!"AXIS_N" f4 l rest ∧ ShortSize l

theorem head_cases (g : Geo D) (folder : Str) (f : File) : (∃ r, loadHead g folder f = .ok r) ∨ loadHead g folder f = .throw ∨ (loadHead g folder f = .ub ∧ BadHead D f) := by
  unfold loadHead
  cases hg : gotoKeyword? cs!"GOCAD Voxet" f with
  | none => exact .inr (.inl rfl)
  | some x =>
    obtain ⟨title, f1⟩ := x
    dsimp only
    rcases GocadHeaders.header_refused f1 with ⟨⟨name, f2⟩, hh⟩ | hh
    · rw [hh, ok_bind]
      dsimp only
      rcases HeadersRefused.system_refused_partial f2 with ⟨⟨crs, f3⟩, hc⟩ | hc | ⟨hc, hb⟩
      · rw [hc, ok_bind]
        dsimp only
        rcases grid_outcomes g name f3 with ⟨⟨grid, f4⟩, hi⟩ | hi | hi
        · rw [hi, ok_bind]
          dsimp only
          cases dataFile f4 with
          | none => exact .inr (.inl rfl)
          | some r => exact .inl ⟨_, rfl⟩
        · obtain ⟨o, u, v, w, f4, l, rest, h1, h2, h3⟩ := grid_ub.1 hi
          exact .inr (.inr ⟨by rw [hi, ub_bind], .inr ⟨name, f3, o, u, v, w, f4, l, rest, ⟨title, f1, f2, crs, goto?_iff.1 hg, hh, hc⟩, h1, h2, h3⟩⟩)
        · exact .inr (.inl (by rw [hi, throw_bind]))
      · exact .inr (.inl (by rw [hc, throw_bind]))
      · exact .inr (.inr ⟨by rw [hc, ub_bind], .inl ⟨title, f1, name, f2, goto?_iff.1 hg, hh, hb⟩⟩)
    · exact .inr (.inl (by rw [hh, throw_bind]))

theorem head_ub {g : Geo D} {folder : Str} {f : File} : loadHead g folder f = .ub ↔ BadHead D f := by
  constructor
  · intro h
    rcases head_cases g folder f with ⟨r, e⟩ | e | ⟨-, hb⟩
    · rw [h] at e; cases e
    · rw [h] at e; cases e
    · exact hb
  · rintro (⟨title, f1, name, f2, h1, h2, h3⟩ | ⟨name, body, o, u, v, w, f4, l, rest, ⟨title, f1, f2, crs, h1, h2, h3⟩, h4, h5, h6⟩)
    · unfold loadHead
      rw [goto?_iff.2 h1]
      dsimp only
      rw [h2, ok_bind]
      dsimp only
      rw [crs_ub_iff.2 h3, ub_bind]
    · unfold loadHead
      rw [goto?_iff.2 h1]
      dsimp only
      rw [h2, ok_bind]
      dsimp only
      rw [h3, ok_bind]
      dsimp only
      rw [grid_ub.2 ⟨o, u, v, w, f4, l, rest, h4, h5, h6⟩, ub_bind]

/-- The lines of the data file, after the third one, are about cells of the grid and have one value per property. -/
def Filled (n : Ijk) (data : File) (names : List Str) (rows : List (Row D)) : Prop :=
  Titles data names ∧ List.Forall₂ (VoxetData.Gives n names.length) (data.drop 3) rows

/-- The first line of the data file that does not give values is about a cell outside of the grid. -/
def Astray (D : Type) [Num D] (n : Ijk) (data : File) : Prop :=
  ∃ names, Titles data names ∧ ∃ pre l rest, data.drop 3 = pre ++ l :: rest ∧ (∃ rows : List (Row D), List.Forall₂ (VoxetData.Gives n names.length) pre rows) ∧
    Outside n names.length l

/-- The grid of the file, if it has one, has less than 2^32 cells. -/
def Small (D : Type) [Num D] (f : File) : Prop :=
  ∀ folder name, ∀ (o u v w : Pt D) (n : Ijk) (path : Str), Described folder f name o u v w n path → n.1 * n.2.1 * n.2.2 < W

theorem Small.described {f : File} (hs : Small D f) {folder : Str} {name : Option Str} {o u v w : Pt D} {n : Ijk} {path : Str}
    (h : Described folder f name o u v w n path) : n.1 * n.2.1 * n.2.2 < W := hs _ _ _ _ _ _ _ _ h

/-- It is enough to look at the grid that is read. -/
theorem small_of {g : Geo D} {f : File} (h : ∀ r, loadHead g [] f = .ok r → r.1.size.1 * r.1.size.2.1 * r.1.size.2.2 < W) : Small D f := by
  rintro folder name o u v w n path ⟨body, rest, l, rest', h1, h2, h3, -⟩
  exact h _ (head_iff.2 ⟨name, o, u, v, w, n, ⟨body, rest, l, rest', h1, h2, h3, rfl⟩, rfl⟩)

/-- **C173, the files that load**: those with headers, axes, and a data file that exists and fills the grid; the grid has their name, origin, sizes and lengths, one column
per property and in each cell the last value given for it. -/
theorem voxet_loads_iff {g : Geo D} {fs : Str → Option File} {folder : Str} {f : File} (hs : Small D f) : (∃ grid, load g fs folder f = .ok grid) ↔
    ∃ (name : Option Str) (o u v w : Pt D) (n : Ijk) (path : Str) (data : File) (names : List Str) (rows : List (Row D)),
      Described folder f name o u v w n path ∧ fs path = some data ∧ Filled n data names rows := by
  constructor
  · rintro ⟨grid, h⟩
    obtain ⟨head, path, data, cols, h1, h2, h3, -⟩ := voxet_loaded.1 h
    obtain ⟨name, o, u, v, w, n, hd, rfl⟩ := head_iff.1 h1
    obtain ⟨names, ht, rows, hr⟩ := (data_loaded (hs.described hd)).1 ⟨cols, h3⟩
    exact ⟨name, o, u, v, w, n, path, data, names, rows, hd, h2, ht, hr⟩
  · rintro ⟨name, o, u, v, w, n, path, data, names, rows, hd, h2, ht, hr⟩
    obtain ⟨cols, h3⟩ := (data_loaded (hs.described hd)).2 ⟨names, ht, rows, hr⟩
    exact ⟨_, voxet_loaded.2 ⟨_, path, data, cols, head_iff.2 ⟨name, o, u, v, w, n, hd, rfl⟩, h2, h3, rfl⟩⟩

/-- **C173, what is loaded**. -/
theorem voxet_is {g : Geo D} {fs : Str → Option File} {folder : Str} {f : File} (hs : Small D f) {grid : Grid D} (h : load g fs folder f = .ok grid) :
    ∃ (name : Option Str) (o u v w : Pt D) (n : Ijk) (path : Str) (data : File) (names : List Str) (rows : List (Row D)),
      Described folder f name o u v w n path ∧ fs path = some data ∧ Filled n data names rows ∧
      grid.name = name ∧ grid.origin = o ∧ grid.size = n ∧ grid.len = lengths g o u v w n ∧
      grid.cols.map (fun c => (c.1, c.2.length)) = names.eraseDups.map (fun m => (m, n.1 * n.2.1 * n.2.2)) ∧
      ∀ m ∈ names, ∀ c, InGrid n c → get grid.cols m (flat n c) = some (lastValue names rows m c) := by
  obtain ⟨head, path, data, cols, h1, h2, h3, rfl⟩ := voxet_loaded.1 h
  obtain ⟨name, o, u, v, w, n, hd, rfl⟩ := head_iff.1 h1
  obtain ⟨names, ht, rows, hr⟩ := (data_loaded (hs.described hd)).1 ⟨cols, h3⟩
  obtain ⟨k1, k2⟩ := data_values (hs.described hd) h3 ht hr
  exact ⟨name, o, u, v, w, n, path, data, names, rows, hd, h2, ⟨ht, hr⟩, rfl, rfl, rfl, rfl, k1, k2⟩

/-- **C173, undefined behaviour**: exactly the files with such headers or sizes, or such a data file. -/
theorem voxet_ub_iff {g : Geo D} {fs : Str → Option File} {folder : Str} {f : File} (hs : Small D f) : load g fs folder f = .ub ↔
    BadHead D f ∨ ∃ (name : Option Str) (o u v w : Pt D) (n : Ijk) (path : Str) (data : File),
      Described folder f name o u v w n path ∧ fs path = some data ∧ Astray D n data := by
  unfold load
  rw [bind_ub, head_ub]
  refine or_congr_right ⟨?_, ?_⟩
  · rintro ⟨⟨head, path⟩, h1, h⟩
    obtain ⟨name, o, u, v, w, n, hd, rfl⟩ := head_iff.1 h1
    dsimp only at h
    cases hf : fs path with
    | none => rw [hf] at h; cases h
    | some data =>
      rw [hf, ofParse_some, ok_bind] at h
      rcases bind_ub.1 h with h | ⟨_, _, h⟩
      · exact ⟨name, o, u, v, w, n, path, data, hd, hf, (data_ub (hs.described hd)).1 h⟩
      · cases h
  · rintro ⟨name, o, u, v, w, n, path, data, hd, hf, ha⟩
    refine ⟨_, head_iff.2 ⟨name, o, u, v, w, n, hd, rfl⟩, ?_⟩
    dsimp only
    rw [hf, ofParse_some, ok_bind]
    exact bind_ub.2 (.inl ((data_ub (hs.described hd)).2 ha))

/-- A voxet that does not load is refused. -/
def Refused (D : Type) [Num D] : Prop := ∀ (g : Geo D) (fs : Str → Option File) (folder : Str) (f : File), Small D f →
  (∃ grid, load g fs folder f = .ok grid) ∨ load g fs folder f = .throw

/-- **C173**: the other files that do not load are refused. -/
theorem refused_partial (g : Geo D) (fs : Str → Option File) (folder : Str) (f : File) (hs : Small D f) :
    (∃ grid, load g fs folder f = .ok grid) ∨ load g fs folder f = .throw ∨ (load g fs folder f = .ub ∧
      (BadHead D f ∨ ∃ (name : Option Str) (o u v w : Pt D) (n : Ijk) (path : Str) (data : File),
        Described folder f name o u v w n path ∧ fs path = some data ∧ Astray D n data)) := by
  cases h : load g fs folder f with
  | ok r => exact .inl ⟨r, rfl⟩
  | throw => exact .inr (.inl rfl)
  | ub => exact .inr (.inr ⟨rfl, (voxet_ub_iff hs).1 h⟩)
  | diverge =>
    exfalso
    unfold load at h
    rcases bind_diverge.1 h with h | ⟨⟨head, path⟩, h1, h⟩
    · rcases head_cases g folder f with ⟨r, e⟩ | e | ⟨e, -⟩ <;> rw [h] at e <;> cases e
    · obtain ⟨name, o, u, v, w, n, hd, rfl⟩ := head_iff.1 h1
      dsimp only at h
      cases hf : fs path with
      | none => rw [hf] at h; cases h
      | some data =>
        rw [hf, ofParse_some, ok_bind] at h
        rcases bind_diverge.1 h with h | ⟨_, _, h⟩
        · rcases data_outcomes (D := D) (hs.described hd) data with ⟨c, e⟩ | e | e <;> rw [h] at e <;> cases e
        · cases h

/-! ## Files -/

open Verif.Props.Voxet (geoZ voFile voData)

/-- The file system with one data file. -/
def only (data : File) : Str → Option File := fun p => if p = cs!"d/v@@" then some data else none

/-- The voxet of the examples has four cells. -/
theorem small_voFile : Small Int voFile := by
  refine small_of (g := geoZ) fun r h => ?_
  rw [show loadHead geoZ [] voFile = .ok (⟨some cs!"v", ⟨0, 0, 0⟩, (2, 2, 1), (2, 1, 3), []⟩, cs!"v@@") by decide +kernel] at h
  rw [← Res.ok.inj h]
  decide

/-- **C173 fails**: a line about a cell outside of the grid is not refused. -/
theorem refused_fails : ¬ Refused Int := by
  intro h
  have e : load geoZ (only (voData ++ [cs!"2 0 0 1 1"])) cs!"d/" voFile = .ub := by decide +kernel
  rcases h geoZ (only (voData ++ [cs!"2 0 0 1 1"])) cs!"d/" voFile small_voFile with ⟨r, e'⟩ | e' <;> rw [e] at e' <;> cases e'

/-- The voxet of the examples satisfies the conditions of `voxet_loads_iff`. -/
example : ∃ (name : Option Str) (o u v w : Pt Int) (n : Ijk) (path : Str) (data : File) (names : List Str) (rows : List (Row Int)),
    Described cs!"d/" voFile name o u v w n path ∧ only voData path = some data ∧ Filled n data names rows :=
  (voxet_loads_iff (g := geoZ) small_voFile).1 (by
    have : (match load geoZ (only voData) cs!"d/" voFile with | .ok _ => true | _ => false) = true := by decide +kernel
    cases h : load geoZ (only voData) cs!"d/" voFile with
    | ok r => exact ⟨r, rfl⟩
    | _ => rw [h] at this; cases this)

/-- A size line of two numbers is undefined behaviour, and `BadHead` holds for it. -/
example : BadHead Int (voFile.take 8 ++ [cs!"AXIS_N 2 2"]) := (head_ub (g := geoZ) (folder := [])).1 (by decide +kernel)

/-- It does not hold for the voxet of the examples, whose missing data file is refused. -/
example : ¬ BadHead Int voFile ∧ load geoZ (fun _ => none) [] voFile = .throw :=
  ⟨fun h => absurd ((head_ub (g := geoZ) (folder := [])).2 h) (by decide +kernel), by decide +kernel⟩

end Verif.Props.VoxetRefused
