import Verif.Model.Voxet
import Verif.Lemmas.Radix
import Verif.Props.Wells
import Verif.Props.GocadUb

/-!
# C21 and C22: voxets
-/

set_option linter.unusedSectionVars false

namespace Verif.Props.Voxet

open Verif Verif.Gocad Verif.GocadMesh Verif.Wells Verif.Voxet Verif.Radix Verif.Props.Wells Verif.Props.GocadTruncated Verif.Props.GocadUb Verif.GocadCut

variable {D : Type} [Num D]

/-! ## Specification -/

/-- A data line: a cell position and one value per property. -/
abbrev Row (D : Type) := Ijk × List D

/-- The line `l` reads `i j k v1 ... vn`. -/
def IsRow (nb : Nat) (l : Str) (r : Row D) : Prop :=
  ∃ a b c ts, split l = a :: b :: c :: ts ∧ parseIndex a = some r.1.1 ∧ parseIndex b = some r.1.2.1 ∧ parseIndex c = some r.1.2.2 ∧
    List.Forall₂ (fun t v => Num.parse t = some v) ts r.2 ∧ r.2.length = nb

/-- Value given by a line to a property: the last one, if the property is listed several times. -/
def valueIn (names : List Str) (vals : List D) (name : Str) : Option D :=
  ((names.zip vals).reverse.find? fun p => p.1 = name).map Prod.snd

/-- Value of a property in a cell: given by the last line about that cell, 0 if there is none. -/
def lastValue (names : List Str) (rows : List (Row D)) (name : Str) (c : Ijk) : D :=
  match rows.reverse.find? fun r => r.1 = c with
  | some r => (valueIn names r.2 name).getD Num.zero
  | none => Num.zero

/-! ## Cell numbering -/

theorem cellIndex_in {n c : Ijk} (hW : n.1 * n.2.1 * n.2.2 < W) (h : InGrid n c) : cellIndex n c = .ok (flat n c) := by
  have hl := flat_lt h
  have e : cellIndex n c = .ok (flat n c % W) := if_pos h
  rw [e, Nat.mod_eq_of_lt (by omega)]

/-! ## Attribute columns -/

/-- Value of the attribute `name` at index `i`. -/
def get (cols : List (Str × List D)) (name : Str) (i : Nat) : Option D :=
  (cols.find? fun p => p.1 = name).bind fun p => p.2[i]?

theorem get_setCol (cols : List (Str × List D)) (n m : Str) (i j : Nat) (d : D) :
    get (setCol cols n i d) m j = if n = m ∧ i = j then (get cols m j).map (fun _ => d) else get cols m j := by
  induction cols with
  | nil => simp [get, setCol]
  | cons c cs ih =>
    simp only [get, setCol, List.map_cons, List.find?_cons] at *
    by_cases hcn : c.1 = n
    · rw [if_pos hcn]
      by_cases hcm : c.1 = m
      · have hnm : n = m := hcn.symm.trans hcm
        simp only [hcm, decide_true, Option.bind_some, List.getElem?_set, hnm, true_and]
        by_cases hij : i = j
        · subst hij
          simp only [if_true]
          by_cases hl : i < c.2.length
          · simp [hl]
          · simp [hl]
        · simp [hij]
      · simp only [hcm, decide_false]
        exact ih
    · rw [if_neg hcn]
      by_cases hcm : c.1 = m
      · have hnm : n ≠ m := fun e => hcn (hcm.trans e.symm)
        simp [hcm, hnm]
      · simp only [hcm, decide_false]
        exact ih

theorem setVals_ok (cell : Nat) {ts : List Str} {vs : List D} (h : List.Forall₂ (fun t v => Num.parse t = some v) ts vs) :
    ∀ (names : List Str) (cols : List (Str × List D)), names.length = vs.length →
      setVals cell cols names ts = .ok ((names.zip vs).foldl (fun c p => setCol c p.1 cell p.2) cols) := by
  induction h with
  | nil => intro names cols hl; cases names <;> simp at hl; rfl
  | cons h1 _ ih =>
    intro names cols hl
    cases names with
    | nil => simp at hl
    | cons n ns =>
      simp only [setVals, readDouble, h1, Res.ofParse_some, Res.ok_bind, List.zip_cons_cons, List.foldl_cons]
      exact ih ns _ (by simpa using hl)

theorem get_setAll (cell : Nat) (ps : List (Str × D)) (cols : List (Str × List D)) (m : Str) (j : Nat) :
    get (ps.foldl (fun c p => setCol c p.1 cell p.2) cols) m j =
      if cell = j then (get cols m j).map fun old => ((ps.reverse.find? fun p => p.1 = m).map Prod.snd).getD old else get cols m j := by
  induction ps generalizing cols with
  | nil => simp
  | cons p ps ih =>
    rw [List.foldl_cons, ih, get_setCol, List.reverse_cons, List.find?_append]
    by_cases hc : cell = j
    · simp only [hc, if_true, and_true]
      by_cases hp : p.1 = m
      · simp only [hp, if_true, Option.map_map]
        congr 1
        funext old
        cases ps.reverse.find? fun p => p.1 = m <;> simp [hp]
      · simp only [hp, if_false]
        congr 1
        funext old
        cases ps.reverse.find? fun p => p.1 = m <;> simp [hp]
    · simp [hc]

theorem get_addCol (n : Nat) (cols : List (Str × List D)) (name m : Str) (j : Nat) (hj : j < n) :
    get (addCol n cols name) m j =
      if (cols.find? fun p => p.1 = m).isSome then get cols m j else if name = m then some Num.zero else none := by
  unfold addCol get
  split
  · rename_i h
    rw [List.any_eq_true] at h
    obtain ⟨c, hc, hn⟩ := h
    rw [beq_iff_eq] at hn
    cases hf : cols.find? fun p => p.1 = m with
    | some p => simp
    | none =>
      rw [List.find?_eq_none] at hf
      have := hf c hc
      simp only [decide_eq_true_eq] at this
      have : name ≠ m := fun e => this (hn.trans e)
      simp [this]
  · rw [List.find?_append]
    cases hf : cols.find? fun p => p.1 = m with
    | some p => simp
    | none =>
      by_cases hm : name = m
      · simp [hm, hj]
      · simp [hm]

theorem find_addCol (n : Nat) (cols : List (Str × List D)) (name m : Str) :
    ((addCol n cols name).find? fun p => p.1 = m).isSome = ((cols.find? fun p => p.1 = m).isSome || decide (name = m)) := by
  unfold addCol
  split
  · rename_i h
    rw [List.any_eq_true] at h
    obtain ⟨c, hc, hn⟩ := h
    rw [beq_iff_eq] at hn
    by_cases hm : name = m
    · have : (cols.find? fun p => p.1 = m).isSome := by
        rw [List.find?_isSome]; exact ⟨c, hc, by simp [hn, hm]⟩
      simp [this]
    · simp [hm]
  · rw [List.find?_append]
    cases cols.find? fun p => p.1 = m with
    | some p => simp
    | none =>
      by_cases hm : name = m
      · simp [hm]
      · simp [hm]

theorem get_addCols (n : Nat) (names : List Str) (cols : List (Str × List D)) (m : Str) (j : Nat) (hj : j < n) :
    get (names.foldl (addCol n) cols) m j =
      if (cols.find? fun p => p.1 = m).isSome then get cols m j else if m ∈ names then some Num.zero else none := by
  induction names generalizing cols with
  | nil =>
    cases h : cols.find? fun p => p.1 = m <;> simp [get, h]
  | cons a as ih =>
    rw [List.foldl_cons, ih, find_addCol, get_addCol n cols a m j hj]
    cases h : (cols.find? fun p => p.1 = m).isSome
    · by_cases ha : a = m
      · simp [ha]
      · have ha' : m ≠ a := fun e => ha e.symm
        simp [ha, ha']
    · simp

/-! ## One line, all lines -/

theorem dataLine_ok {n : Ijk} {names : List Str} {l : Str} {r : Row D} (hW : n.1 * n.2.1 * n.2.2 < W)
    (hr : IsRow names.length l r) (hin : InGrid n r.1) (cols : List (Str × List D)) :
    dataLine n names cols l = .ok ((names.zip r.2).foldl (fun c p => setCol c p.1 (flat n r.1) p.2) cols) := by
  obtain ⟨a, b, c, ts, hs, ha, hb, hc, hv, hl⟩ := hr
  unfold dataLine
  have hlen : ts.length = names.length := by rw [hv.length_eq, hl]
  simp only [hs, List.length_cons, hlen, beq_self_eq_true, Res.check_true, Res.ok_bind, Res.index_cons_zero, Res.index_cons_succ,
    readIndex, ha, hb, hc, Res.ofParse_some]
  rw [show ((r.1.1, r.1.2.1, r.1.2.2) : Ijk) = r.1 from rfl, cellIndex_in hW hin, Res.ok_bind]
  exact setVals_ok _ hv names cols hl.symm

theorem lines_get {n : Ijk} {names : List Str} (hW : n.1 * n.2.1 * n.2.2 < W) {lines : List Str} {rows : List (Row D)}
    (hr : List.Forall₂ (IsRow names.length) lines rows) (hin : ∀ r ∈ rows, InGrid n r.1) (cols : List (Str × List D)) :
    ∃ cols', Res.foldM' (dataLine n names) cols lines = .ok cols' ∧ ∀ (m : Str) (c : Ijk), InGrid n c →
      get cols' m (flat n c) = (get cols m (flat n c)).map fun old =>
        rows.foldl (fun o r => if r.1 = c then (valueIn names r.2 m).getD o else o) old := by
  induction hr generalizing cols with
  | nil => exact ⟨cols, rfl, fun m c _ => by simp⟩
  | @cons l r ls rs h1 _ ih =>
    rw [Res.foldM'_cons, dataLine_ok hW h1 (hin r (by simp)), Res.ok_bind]
    obtain ⟨cols', e, hg⟩ := ih (fun r hr => hin r (by simp [hr])) ((names.zip r.2).foldl (fun c p => setCol c p.1 (flat n r.1) p.2) cols)
    refine ⟨cols', e, fun m c hc => ?_⟩
    rw [hg m c hc, get_setAll]
    by_cases hrc : r.1 = c
    · simp only [hrc, if_true, Option.map_map, List.foldl_cons, valueIn]
      rfl
    · have : flat n r.1 ≠ flat n c := fun e => hrc (flat_inj (hin r (by simp)) hc e)
      simp [this, hrc]

theorem valueIn_isSome {names : List Str} {vals : List D} (hl : vals.length = names.length) {m : Str} (hm : m ∈ names) :
    ∃ v, valueIn names vals m = some v := by
  unfold valueIn
  obtain ⟨i, hi, rfl⟩ := List.getElem_of_mem hm
  have : ((names.zip vals).reverse.find? fun p => p.1 = names[i]).isSome := by
    rw [List.find?_isSome]
    refine ⟨(names[i], vals[i]'(by omega)), ?_, by simp⟩
    rw [List.mem_reverse, List.mem_iff_getElem]
    exact ⟨i, by rw [List.length_zip]; omega, by simp⟩
  obtain ⟨v, hv⟩ := Option.isSome_iff_exists.1 this
  exact ⟨v.2, by rw [hv]; rfl⟩

theorem fold_last {names : List Str} {m : Str} (hm : m ∈ names) (c : Ijk) {rows : List (Row D)}
    (hl : ∀ r ∈ rows, r.2.length = names.length) (z : D) :
    rows.foldl (fun o r => if r.1 = c then (valueIn names r.2 m).getD o else o) z =
      match rows.reverse.find? fun r => r.1 = c with
      | some r => (valueIn names r.2 m).getD z
      | none => z := by
  induction rows generalizing z with
  | nil => rfl
  | cons r rs ih =>
    rw [List.foldl_cons, ih (fun r hr => hl r (by simp [hr])), List.reverse_cons, List.find?_append]
    cases hf : rs.reverse.find? fun r => r.1 = c with
    | some r' =>
      have hr' : r' ∈ rs := List.mem_reverse.1 (List.mem_of_find?_eq_some hf)
      obtain ⟨v, hv⟩ := valueIn_isSome (hl r' (by simp [hr'])) hm
      simp [hv]
    | none =>
      by_cases hrc : r.1 = c <;> simp [hrc]

theorem rows_length {nb : Nat} {lines : List Str} {rows : List (Row D)} (h : List.Forall₂ (IsRow nb) lines rows) :
    ∀ r ∈ rows, r.2.length = nb := by
  induction h with
  | nil => simp
  | cons h1 _ ih =>
    intro r hr
    rcases List.mem_cons.1 hr with rfl | hr
    · obtain ⟨_, _, _, _, _, _, _, _, _, h⟩ := h1
      exact h
    · exact ih r hr

/-! ## C21 -/

/-- **C21 for data lines about cells of the grid.**  When the data file (after its three title lines) is made of lines giving a cell and
one value per property, the file is loaded and the value of each property in each cell is the value given by the last line about that
cell, 0 when there is none. -/
theorem cell_value_partial {g : Geo D} {fs : Str → Option File} {folder path : Str} {f : File} {grid : Grid D}
    (hhead : loadHead g folder f = .ok (grid, path)) {l0 titles l2 t0 t1 t2 t3 : Str} {names lines : List Str} {rows : List (Row D)}
    (hfs : fs path = some (l0 :: titles :: l2 :: lines)) (ht : split titles = t0 :: t1 :: t2 :: t3 :: names)
    (hW : grid.size.1 * grid.size.2.1 * grid.size.2.2 < W)
    (hrows : List.Forall₂ (IsRow names.length) lines rows) (hin : ∀ r ∈ rows, InGrid grid.size r.1) :
    ∃ cols, load g fs folder f = .ok { grid with cols } ∧
      ∀ name ∈ names, ∀ c, InGrid grid.size c → Grid.value { grid with cols } name c = some (lastValue names rows name c) := by
  obtain ⟨cols, e, hg⟩ := lines_get hW hrows hin (names.foldl (addCol (nbCells grid.size)) [])
  refine ⟨cols, ?_, ?_⟩
  · unfold load readData
    rw [hhead, Res.ok_bind]
    simp only [hfs, Res.ofParse_some, Res.ok_bind, List.getD_cons_succ, List.getD_cons_zero, ht, List.length_cons, List.drop_succ_cons,
      List.drop_zero]
    rw [show decide (4 ≤ names.length + 1 + 1 + 1 + 1) = true by simp, Res.check_true, Res.ok_bind, e]
    rfl
  · intro name hn c hc
    have hlt : flat grid.size c < nbCells grid.size := by
      unfold nbCells; rw [Nat.mod_eq_of_lt hW]; exact flat_lt hc
    have h1 : Grid.value { grid with cols } name c = get cols name (flat grid.size c) := by
      unfold Grid.value get
      rw [cellIndex_in hW hc]
      rfl
    rw [h1, hg name c hc, get_addCols _ _ _ _ _ hlt]
    simp only [List.find?_nil, Option.isSome_none, Bool.false_eq_true, if_false, hn, if_true, Option.map_some]
    rw [fold_last hn]
    · rfl
    · intro r hr
      exact rows_length hrows r hr

/-- **C21, wrong number of values.**  After any number of correct lines, a line that does not have one value per property raises an
exception. -/
theorem wrong_count {g : Geo D} {fs : Str → Option File} {folder path : Str} {f : File} {grid : Grid D}
    (hhead : loadHead g folder f = .ok (grid, path)) {l0 titles l2 t0 t1 t2 t3 l : Str} {names lines rest : List Str}
    {rows : List (Row D)}
    (hfs : fs path = some (l0 :: titles :: l2 :: (lines ++ l :: rest))) (ht : split titles = t0 :: t1 :: t2 :: t3 :: names)
    (hW : grid.size.1 * grid.size.2.1 * grid.size.2.2 < W)
    (hrows : List.Forall₂ (IsRow names.length) lines rows) (hin : ∀ r ∈ rows, InGrid grid.size r.1)
    (hl : (split l).length ≠ names.length + 3) : load g fs folder f = .throw := by
  obtain ⟨cols, e, -⟩ := lines_get hW hrows hin (names.foldl (addCol (nbCells grid.size)) [])
  unfold load readData
  rw [hhead, Res.ok_bind]
  simp only [hfs, Res.ofParse_some, Res.ok_bind, List.getD_cons_succ, List.getD_cons_zero, ht, List.length_cons, List.drop_succ_cons,
    List.drop_zero]
  rw [show decide (4 ≤ names.length + 1 + 1 + 1 + 1) = true by simp, Res.check_true, Res.ok_bind, Res.foldM'_append, e, Res.ok_bind,
    Res.foldM'_cons]
  have : dataLine grid.size names cols l = .throw := by
    unfold dataLine
    dsimp only
    rw [show ((split l).length == names.length + 3) = false by simpa using hl]
    rfl
  rw [this]
  rfl

/-- A data line about a cell outside of the grid violates the precondition of `cell_index`. -/
theorem cell_outside {n : Ijk} {names : List Str} {l : Str} {r : Row D} (hr : IsRow names.length l r) (hout : ¬ InGrid n r.1)
    (cols : List (Str × List D)) : dataLine n names cols l = .ub := by
  obtain ⟨a, b, c, ts, hs, ha, hb, hc, hv, hl⟩ := hr
  unfold dataLine
  have hlen : ts.length = names.length := by rw [hv.length_eq, hl]
  simp only [hs, List.length_cons, hlen, beq_self_eq_true, Res.check_true, Res.ok_bind, Res.index_cons_zero, Res.index_cons_succ,
    readIndex, ha, hb, hc, Res.ofParse_some]
  have : cellIndex n (r.1.1, r.1.2.1, r.1.2.2) = .ub := by
    unfold cellIndex; exact if_neg hout
  rw [this]
  rfl

/-- Distances and divisions for the examples. -/
def geoZ : Geo Int := ⟨fun p q => (q.x - p.x) + (q.y - p.y) + (q.z - p.z), fun d n => d / n⟩

/-- The `.vo` file of the examples. -/
def voFile : File :=
  [cs!"GOCAD Voxet 1", cs!"HEADER {", cs!"name:v", cs!"}", cs!"AXIS_O 0 0 0", cs!"AXIS_U 4 0 0", cs!"AXIS_V 0 2 0", cs!"AXIS_W 0 0 3",
   cs!"AXIS_N 2 2 1", cs!"ASCII_DATA_FILE \"v@@\""]

/-- The data file of the examples. -/
def voData : File := [cs!"*", cs!"* I J K poro perm", cs!"*", cs!"0 1 0 5 6", cs!"1 0 0 7 8", cs!"0 1 0 9 10"]

/-- The hypotheses of `cell_value_partial` hold for the example: the last line about cell (0,1,0) wins. -/
example : loadHead geoZ cs!"d/" voFile = .ok (⟨some cs!"v", ⟨0, 0, 0⟩, (2, 2, 1), (2, 1, 3), []⟩, cs!"d/v@@") ∧
    (load geoZ (fun p => if p = cs!"d/v@@" then some voData else none) cs!"d/" voFile).bind
      (fun g => .ok (g.value cs!"perm" (0, 1, 0), g.value cs!"perm" (1, 0, 0), g.value cs!"poro" (1, 1, 0))) =
      .ok (some 10, some 8, some 0) := by
  decide +kernel

example : List.Forall₂ (IsRow (D := Int) 2) (voData.drop 3) [((0, 1, 0), [5, 6]), ((1, 0, 0), [7, 8]), ((0, 1, 0), [9, 10])] := by
  refine .cons ⟨cs!"0", cs!"1", cs!"0", [cs!"5", cs!"6"], ?_⟩ (.cons ⟨cs!"1", cs!"0", cs!"0", [cs!"7", cs!"8"], ?_⟩
    (.cons ⟨cs!"0", cs!"1", cs!"0", [cs!"9", cs!"10"], ?_⟩ .nil)) <;>
  exact ⟨by decide +kernel, by decide +kernel, by decide +kernel, by decide +kernel,
    .cons (by decide +kernel) (.cons (by decide +kernel) .nil), rfl⟩

/-! ## C22 -/

/-- The announced data file is the one the reader opens. -/
def Announced (g : Geo D) (fs : Str → Option File) (folder : Str) (f : File) : Prop :=
  ∀ grid path, loadHead g folder f = .ok (grid, path) → additionalFiles fs f = some (path, (fs path).isSome)

/-- **C22 fails.**  The folder of the `.vo` file is forgotten: the data file next to it is announced as missing. -/
theorem announced_without_folder :
    ¬ Announced geoZ (fun p => if p = cs!"d/v@@" then some voData else none) cs!"d/" voFile := by
  intro h
  have := h ⟨some cs!"v", ⟨0, 0, 0⟩, (2, 2, 1), (2, 1, 3), []⟩ cs!"d/v@@" (by decide +kernel)
  revert this
  decide +kernel

/-- The same with the record ended by a carriage return: the reader removes it, the announcement keeps it. -/
theorem announced_with_cr :
    ¬ Announced geoZ (fun p => if p = cs!"v@@" then some voData else none) [] (voFile.map (· ++ ['\r'])) := by
  intro h
  have := h ⟨some cs!"v", ⟨0, 0, 0⟩, (2, 2, 1), (2, 1, 3), []⟩ cs!"v@@" (by decide +kernel)
  revert this
  decide +kernel

theorem initGrid_suffix {g : Geo D} {name : Option Str} {f : File} {r : Grid D × File} (h : initGrid g name f = .ok r) :
    ∃ u, f = u ++ r.2 := by
  unfold initGrid gotoKeyword at h
  simp only [Res.bind_eq_ok] at h
  obtain ⟨⟨l1, f1⟩, h1, _, _, ⟨l2, f2⟩, h2, _, _, ⟨l3, f3⟩, h3, _, _, ⟨l4, f4⟩, h4, _, _, ⟨l5, f5⟩, h5, _, _, e⟩ := h
  have step : ∀ {kw : Str} {a b : File} {l : Str}, Res.ofParse (gotoKeyword? kw a) = .ok (l, b) → ∃ u, a = u ++ b := by
    intro kw a b l hh
    cases hk : gotoKeyword? kw a with
    | none => rw [hk] at hh; simp at hh
    | some p =>
      rw [hk] at hh
      simp only [Res.ofParse_some, Res.ok.injEq] at hh
      subst hh
      obtain ⟨pre, e, -⟩ := gotoKeyword?_some hk
      exact ⟨pre ++ [l], by simp [e]⟩
  obtain ⟨u1, e1⟩ := step h1
  obtain ⟨u2, e2⟩ := step h2
  obtain ⟨u3, e3⟩ := step h3
  obtain ⟨u4, e4⟩ := step h4
  obtain ⟨u5, e5⟩ := step h5
  simp only [Res.pure_eq, Res.ok.injEq] at e
  subst e
  dsimp only at e2 e3 e4 e5 ⊢
  exact ⟨u1 ++ (u2 ++ (u3 ++ (u4 ++ u5))), by simp [e1, e2, e3, e4, e5]⟩

theorem unrecord_subset (k : Nat) (s : Str) : ∀ c ∈ unrecord k s, c ∈ s := by
  induction s generalizing k with
  | nil => simp [unrecord]
  | cons a as ih =>
    intro c hc
    cases k with
    | succ k => exact List.mem_cons_of_mem _ (ih k c hc)
    | zero =>
      rw [unrecord] at hc
      split at hc
      · exact List.mem_cons_of_mem _ (ih _ c hc)
      · split at hc
        · exact List.mem_cons_of_mem _ (ih _ c hc)
        · rcases List.mem_cons.1 hc with rfl | hc
          · simp
          · exact List.mem_cons_of_mem _ (ih _ c hc)

theorem stripCr_id {s : Str} (h : '\r' ∉ s) : stripCr s = s := by
  unfold stripCr
  split
  · rename_i e
    exact absurd (List.mem_of_getLast? e) h
  · rfl

/-- **C22 for a `.vo` file of the current folder** that has one data file record and no carriage return. -/
theorem announced_partial {g : Geo D} {fs : Str → Option File} {f : File}
    (hone : (f.filter fun l => startsWith l cs!"ASCII_DATA_FILE").length ≤ 1) (hcr : ∀ l ∈ f, '\r' ∉ l) : Announced g fs [] f := by
  intro grid path h
  unfold loadHead at h
  cases hg : gotoKeyword? cs!"GOCAD Voxet" f with
  | none => rw [hg] at h; simp at h
  | some r =>
    obtain ⟨l0, f0⟩ := r
    rw [hg] at h
    simp only [Res.bind_eq_ok] at h
    obtain ⟨⟨name, f1⟩, h1, ⟨crs, f2⟩, h2, ⟨grid', f3⟩, h3, record, h4, e⟩ := h
    obtain ⟨u0, e0⟩ := mem_of_goto hg
    obtain ⟨u1, e1⟩ := readHeader_cut.suffix h1
    obtain ⟨u2, e2⟩ := readCrs_cut.suffix h2
    obtain ⟨u3, e3⟩ := initGrid_suffix h3
    dsimp only at e0 e1 e2 e3 h4 e
    have ef : f = (u0 ++ (u1 ++ (u2 ++ u3))) ++ f3 := by simp [e0, e1, e2, e3]
    generalize u0 ++ (u1 ++ (u2 ++ u3)) = u at ef
    unfold dataFile at h4
    cases hk : gotoKeyword? cs!"ASCII_DATA_FILE" f3 with
    | none => rw [hk] at h4; simp at h4
    | some p =>
      obtain ⟨l, rest⟩ := p
      rw [hk] at h4
      simp only [Option.map_some, Res.ofParse_some, Res.ok.injEq] at h4
      obtain ⟨pre, e', hpre, hl⟩ := gotoKeyword?_some hk
      have hu : ∀ x ∈ u, startsWith x cs!"ASCII_DATA_FILE" = false := by
        intro x hx
        cases hx' : startsWith x cs!"ASCII_DATA_FILE" with
        | false => rfl
        | true =>
          exfalso
          rw [ef, e', List.filter_append, List.filter_append, List.filter_cons, if_pos hl] at hone
          have : x ∈ u.filter fun l => startsWith l cs!"ASCII_DATA_FILE" := List.mem_filter.2 ⟨hx, hx'⟩
          have := List.length_pos_of_mem this
          simp only [List.length_append, List.length_cons] at hone
          omega
      have hf : gotoKeyword? cs!"ASCII_DATA_FILE" f = some (l, rest) := by
        rw [ef, e', ← List.append_assoc]
        apply gotoKeyword?_skip' _ hl
        intro x hx
        rcases List.mem_append.1 hx with hx | hx
        · exact hu x hx
        · exact hpre x hx
      have hlf : l ∈ f := by rw [ef, e']; simp
      simp only [Res.pure_eq, Res.ok.injEq, Prod.mk.injEq, List.nil_append] at e
      have hs : stripCr record = record := stripCr_id fun hc => hcr l hlf (unrecord_subset 0 l _ (by rw [h4]; exact hc))
      rw [hs] at e
      unfold additionalFiles dataFile
      rw [hf]
      simp only [Option.map_some, h4, e.2]

/-- The hypotheses hold for the example file. -/
example : (voFile.filter fun l => startsWith l cs!"ASCII_DATA_FILE").length ≤ 1 ∧ (∀ l ∈ voFile, '\r' ∉ l) ∧
    additionalFiles (fun p => if p = cs!"v@@" then some voData else none) voFile = some (cs!"v@@", true) := by
  decide +kernel

end Verif.Props.Voxet
