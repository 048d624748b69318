import Verif.Props.Voxet

/-!
# C153: which data files of voxets load

`Voxet.lean` says what a good data file gives; here every data file is covered.
-/

set_option linter.unusedSectionVars false

namespace Verif.Props.VoxetData

open Verif Verif.Voxet Verif.Radix Verif.Props.Voxet

variable {D : Type} [Num D]

/-! ## Specification -/

/-- The line has the right number of words and starts with the position `c`. -/
def Position (nb : Nat) (l : Str) (c : Ijk) : Prop :=
  ∃ a b d ts, split l = a :: b :: d :: ts ∧ ts.length = nb ∧ parseIndex a = some c.1 ∧ parseIndex b = some c.2.1 ∧ parseIndex d = some c.2.2

/-- The line gives the values `r` of a cell of the grid. -/
def Gives (n : Ijk) (nb : Nat) (l : Str) (r : Row D) : Prop := IsRow nb l r ∧ InGrid n r.1

/-- The line is about a cell which is not in the grid. -/
def Outside (n : Ijk) (nb : Nat) (l : Str) : Prop := ∃ c, Position nb l c ∧ ¬ InGrid n c

/-- The names of the properties: the words of the second line after the fourth one. -/
def Titles (f : File) (names : List Str) : Prop := ∃ l0 l1 rest t0 t1 t2 t3, f = l0 :: l1 :: rest ∧ split l1 = t0 :: t1 :: t2 :: t3 :: names

/-! ## One line -/

theorem IsRow.position {nb : Nat} {l : Str} {r : Row D} (h : IsRow nb l r) : Position nb l r.1 := by
  obtain ⟨a, b, c, ts, hs, ha, hb, hc, hv, hl⟩ := h
  exact ⟨a, b, c, ts, hs, by rw [hv.length_eq, hl], ha, hb, hc⟩

theorem Position.unique {nb : Nat} {l : Str} {c c' : Ijk} (h : Position nb l c) (h' : Position nb l c') : c = c' := by
  obtain ⟨a, b, d, ts, hs, -, h1, h2, h3⟩ := h
  obtain ⟨a', b', d', ts', hs', -, h1', h2', h3'⟩ := h'
  rw [hs] at hs'
  simp only [List.cons.injEq] at hs'
  obtain ⟨rfl, rfl, rfl, -⟩ := hs'
  rw [h1] at h1'; rw [h2] at h2'; rw [h3] at h3'
  exact Prod.ext (Option.some.inj h1') (Prod.ext (Option.some.inj h2') (Option.some.inj h3'))

theorem setVals_cases (cell : Nat) : ∀ (names ts : List Str) (cols : List (Str × List D)), ts.length = names.length →
    (∃ vs : List D, List.Forall₂ (fun t v => Num.parse t = some v) ts vs) ∨
      (setVals cell cols names ts = .throw ∧ ¬ ∃ vs : List D, List.Forall₂ (fun t v => Num.parse t = some v) ts vs) := by
  intro names
  induction names with
  | nil =>
    intro ts cols h
    rw [List.length_nil, List.length_eq_zero_iff] at h
    subst h
    exact .inl ⟨[], .nil⟩
  | cons n ns ih =>
    intro ts cols h
    cases ts with
    | nil => simp at h
    | cons t ts =>
      rw [setVals]
      cases hp : (Num.parse t : Option D) with
      | none =>
        refine .inr ⟨by simp [readDouble, hp], ?_⟩
        rintro ⟨vs, h⟩
        cases h with
        | cons h1 _ => rw [hp] at h1; exact absurd h1 (by simp)
      | some v =>
        have e : readDouble t = .ok v := by simp [readDouble, hp]
        rw [e, Res.ok_bind]
        rcases ih ts (setCol cols n cell v) (by simpa using h) with ⟨vs, hv⟩ | ⟨h1, h2⟩
        · exact .inl ⟨v :: vs, .cons hp hv⟩
        · refine .inr ⟨h1, ?_⟩
          rintro ⟨vs, h⟩
          cases h with
          | cons _ h => exact h2 ⟨_, h⟩

/-- The three outcomes of one line. -/
theorem line_cases {n : Ijk} (hW : n.1 * n.2.1 * n.2.2 < W) (names : List Str) (cols : List (Str × List D)) (l : Str) :
    (∃ r : Row D, Gives n names.length l r ∧
      dataLine n names cols l = .ok ((names.zip r.2).foldl (fun c p => setCol c p.1 (flat n r.1) p.2) cols)) ∨
    (Outside n names.length l ∧ dataLine n names cols l = .ub) ∨
    (dataLine n names cols l = .throw ∧ (¬ ∃ r : Row D, Gives n names.length l r) ∧ ¬ Outside n names.length l) := by
  by_cases hl : (split l).length = names.length + 3
  case neg =>
    refine .inr (.inr ⟨?_, ?_, ?_⟩)
    · unfold dataLine
      dsimp only
      rw [show ((split l).length == names.length + 3) = false by simpa using hl]
      rfl
    · rintro ⟨r, ⟨a, b, c, ts, hs, -, -, -, hv, hr⟩, -⟩
      apply hl
      rw [hs]
      have := hv.length_eq
      simp; omega
    · rintro ⟨c, ⟨a, b, d, ts, hs, hr, -⟩, -⟩
      apply hl
      rw [hs]
      simp; omega
  case pos =>
    match hs : split l, hl with
    | a :: b :: c :: ts, hl =>
      have hts : ts.length = names.length := by simpa using hl
      have hunf : dataLine n names cols l = (readIndex a >>= fun i => readIndex b >>= fun j => readIndex c >>= fun k =>
          cellIndex n (i, j, k) >>= fun cell => setVals cell cols names ts) := by
        unfold dataLine
        simp only [hs, List.length_cons, hts, beq_self_eq_true, Res.check_true, Res.ok_bind, Res.index_cons_zero, Res.index_cons_succ]
        rfl
      have none1 : ∀ {q : Ijk}, Position names.length l q → parseIndex a = some q.1 ∧ parseIndex b = some q.2.1 ∧ parseIndex c = some q.2.2 := by
        rintro q ⟨a', b', c', ts', hs', -, h1, h2, h3⟩
        rw [hs] at hs'
        simp only [List.cons.injEq] at hs'
        obtain ⟨rfl, rfl, rfl, -⟩ := hs'
        exact ⟨h1, h2, h3⟩
      have refuse : dataLine n names cols l = .throw → (¬ ∃ q, Position names.length l q) →
          (dataLine n names cols l = .throw ∧ (¬ ∃ r : Row D, Gives n names.length l r) ∧ ¬ Outside n names.length l) :=
        fun h1 h2 => ⟨h1, fun ⟨r, hr, _⟩ => h2 ⟨_, IsRow.position hr⟩, fun ⟨q, hq, _⟩ => h2 ⟨q, hq⟩⟩
      cases ha : parseIndex a with
      | none =>
        refine .inr (.inr (refuse ?_ ?_))
        · rw [hunf]; simp [readIndex, ha]
        · rintro ⟨q, hq⟩; have := (none1 hq).1; rw [ha] at this; simp at this
      | some i =>
        cases hb : parseIndex b with
        | none =>
          refine .inr (.inr (refuse ?_ ?_))
          · rw [hunf]; simp [readIndex, ha, hb]
          · rintro ⟨q, hq⟩; have := (none1 hq).2.1; rw [hb] at this; simp at this
        | some j =>
          cases hc : parseIndex c with
          | none =>
            refine .inr (.inr (refuse ?_ ?_))
            · rw [hunf]; simp [readIndex, ha, hb, hc]
            · rintro ⟨q, hq⟩; have := (none1 hq).2.2; rw [hc] at this; simp at this
          | some k =>
            have hpos : Position names.length l (i, j, k) := ⟨a, b, c, ts, hs, hts, ha, hb, hc⟩
            have hunf2 : dataLine n names cols l = (cellIndex n (i, j, k) >>= fun cell => setVals cell cols names ts) := by
              rw [hunf]; simp [readIndex, ha, hb, hc]
            by_cases hin : InGrid n (i, j, k)
            · rw [cellIndex_in hW hin, Res.ok_bind] at hunf2
              rcases setVals_cases (flat n (i, j, k)) names ts cols hts with ⟨vs, hv⟩ | ⟨h1, h2⟩
              · have hr : IsRow names.length l ((i, j, k), vs) := ⟨a, b, c, ts, hs, ha, hb, hc, hv, by rw [← hts]; exact hv.length_eq.symm⟩
                exact .inl ⟨((i, j, k), vs), ⟨hr, hin⟩, dataLine_ok hW hr hin cols⟩
              · refine .inr (.inr ⟨hunf2.trans h1, ?_, ?_⟩)
                · rintro ⟨r, ⟨a', b', c', ts', hs', -, -, -, hv, -⟩, -⟩
                  rw [hs] at hs'
                  simp only [List.cons.injEq] at hs'
                  obtain ⟨-, -, -, rfl⟩ := hs'
                  exact h2 ⟨_, hv⟩
                · rintro ⟨q, hq, hout⟩
                  rw [Position.unique hq hpos] at hout
                  exact hout hin
            · refine .inr (.inl ⟨⟨(i, j, k), hpos, hin⟩, ?_⟩)
              rw [hunf2, show cellIndex n (i, j, k) = .ub from if_neg hin]
              rfl

/-! ## All lines -/

theorem lines_cases {n : Ijk} (hW : n.1 * n.2.1 * n.2.2 < W) (names : List Str) (lines : List Str) : ∀ cols : List (Str × List D),
    (∃ rows : List (Row D), List.Forall₂ (Gives n names.length) lines rows) ∨
    (∃ pre l rest, lines = pre ++ l :: rest ∧ (∃ rows : List (Row D), List.Forall₂ (Gives n names.length) pre rows) ∧
      ((Outside n names.length l ∧ Res.foldM' (dataLine n names) cols lines = .ub) ∨
        ((¬ ∃ r : Row D, Gives n names.length l r) ∧ ¬ Outside n names.length l ∧ Res.foldM' (dataLine n names) cols lines = .throw))) := by
  induction lines with
  | nil => exact fun _ => .inl ⟨[], .nil⟩
  | cons l ls ih =>
    intro cols
    rw [Res.foldM'_cons]
    rcases line_cases hW names cols l with ⟨r, hr, e⟩ | ⟨ho, e⟩ | ⟨e, h1, h2⟩
    · rw [e, Res.ok_bind]
      rcases ih ((names.zip r.2).foldl (fun c p => setCol c p.1 (flat n r.1) p.2) cols) with ⟨rows, h⟩ | ⟨pre, l', rest, e', ⟨rows, hp⟩, h⟩
      · exact .inl ⟨r :: rows, .cons hr h⟩
      · exact .inr ⟨l :: pre, l', rest, by rw [e']; rfl, ⟨r :: rows, .cons hr hp⟩, h⟩
    · exact .inr ⟨[], l, ls, rfl, ⟨[], .nil⟩, .inl ⟨ho, by rw [e]; rfl⟩⟩
    · exact .inr ⟨[], l, ls, rfl, ⟨[], .nil⟩, .inr ⟨h1, h2, by rw [e]; rfl⟩⟩

theorem gives_forall {n : Ijk} {nb : Nat} {lines : List Str} {rows : List (Row D)} (h : List.Forall₂ (Gives n nb) lines rows) :
    List.Forall₂ (IsRow nb) lines rows ∧ ∀ r ∈ rows, InGrid n r.1 := by
  induction h with
  | nil => exact ⟨.nil, by simp⟩
  | cons h1 _ ih =>
    refine ⟨.cons h1.1 ih.1, fun r hr => ?_⟩
    rcases List.mem_cons.1 hr with rfl | hr
    · exact h1.2
    · exact ih.2 r hr

/-- Columns keep their names and lengths when values are set. -/
theorem setCol_shape (cols : List (Str × List D)) (name : Str) (i : Nat) (d : D) :
    (setCol cols name i d).map (fun c => (c.1, c.2.length)) = cols.map fun c => (c.1, c.2.length) := by
  unfold setCol
  rw [List.map_map]
  refine List.map_congr_left fun c _ => ?_
  simp only [Function.comp_apply]
  split <;> simp

theorem setAll_shape (cell : Nat) (ps : List (Str × D)) : ∀ cols : List (Str × List D),
    (ps.foldl (fun c p => setCol c p.1 cell p.2) cols).map (fun c => (c.1, c.2.length)) = cols.map fun c => (c.1, c.2.length) := by
  induction ps with
  | nil => exact fun _ => rfl
  | cons p ps ih => intro cols; rw [List.foldl_cons, ih, setCol_shape]

theorem lines_shape {n : Ijk} (hW : n.1 * n.2.1 * n.2.2 < W) {names : List Str} {lines : List Str} {rows : List (Row D)}
    (h : List.Forall₂ (Gives n names.length) lines rows) : ∀ cols cols' : List (Str × List D),
    Res.foldM' (dataLine n names) cols lines = .ok cols' → cols'.map (fun c => (c.1, c.2.length)) = cols.map fun c => (c.1, c.2.length) := by
  induction h with
  | nil => intro cols cols' e; rw [Res.foldM'_nil, Res.ok.injEq] at e; rw [e]
  | cons h1 _ ih =>
    intro cols cols' e
    rw [Res.foldM'_cons, dataLine_ok hW h1.1 h1.2, Res.ok_bind] at e
    rw [ih _ _ e, setAll_shape]

/-- The columns created for the names: one per name, in the order of their first appearance. -/
theorem addCols_shape (n : Nat) (names : List Str) : ∀ cols : List (Str × List D),
    (names.foldl (addCol n) cols).map (fun c => (c.1, c.2.length)) =
      cols.map (fun c => (c.1, c.2.length)) ++ ((names.filter fun m => !cols.any fun c => c.1 == m).eraseDups.map fun m => (m, n)) := by
  induction names with
  | nil => intro cols; simp
  | cons a as ih =>
    intro cols
    rw [List.foldl_cons, ih]
    unfold addCol
    by_cases h : (cols.any fun c => c.1 == a) = true
    · rw [if_pos h, List.filter_cons_of_neg (by simp [h])]
    · rw [if_neg h, List.filter_cons_of_pos (by rw [Bool.not_eq_true] at h; rw [h]; rfl), List.eraseDups_cons, List.filter_filter]
      simp only [List.map_append, List.map_cons, List.map_nil, List.length_replicate, List.append_assoc, List.cons_append, List.nil_append]
      congr 4
      apply List.filter_congr
      intro m _
      simp only [List.any_append, List.any_cons, List.any_nil, Bool.or_false, Bool.not_or]
      rw [Bool.and_comm]
      congr 2
      rw [Bool.eq_iff_iff]
      simp only [beq_iff_eq]
      exact eq_comm

/-! ## C153 -/

theorem readData_eq {n : Ijk} {f : File} {names : List Str} (h : Titles f names) : (readData n f : Res (List (Str × List D))) =
    Res.foldM' (dataLine n names) (names.foldl (addCol (nbCells n)) []) (f.drop 3) := by
  obtain ⟨l0, l1, rest, t0, t1, t2, t3, rfl, ht⟩ := h
  unfold readData
  simp only [List.getD_cons_succ, List.getD_cons_zero, ht, List.length_cons, List.drop_succ_cons, List.drop_zero]
  rw [show decide (4 ≤ names.length + 1 + 1 + 1 + 1) = true by simp, Res.check_true, Res.ok_bind]

/-- A file without four words on its second line is refused. -/
theorem no_titles {n : Ijk} {f : File} (h : ¬ ∃ names, Titles f names) : (readData n f : Res (List (Str × List D))) = .throw := by
  unfold readData
  dsimp only
  rw [show decide (4 ≤ (split (f.getD 1 [])).length) = false from decide_eq_false ?_]
  · rfl
  · intro h4
    apply h
    match f, h4 with
    | [], h4 => exact absurd h4 (by decide)
    | [_], h4 => exact absurd (show 4 ≤ (split []).length from h4) (by decide)
    | l0 :: l1 :: rest, h4 =>
      simp only [List.getD_cons_succ, List.getD_cons_zero] at h4
      match hs : split l1, h4 with
      | t0 :: t1 :: t2 :: t3 :: names, _ => exact ⟨names, l0, l1, rest, t0, t1, t2, t3, rfl, hs⟩

theorem Titles.unique {f : File} {names names' : List Str} (h : Titles f names) (h' : Titles f names') : names = names' := by
  obtain ⟨l0, l1, rest, t0, t1, t2, t3, rfl, ht⟩ := h
  obtain ⟨l0', l1', rest', t0', t1', t2', t3', e, ht'⟩ := h'
  simp only [List.cons.injEq] at e
  obtain ⟨-, rfl, -⟩ := e
  rw [ht] at ht'
  simp only [List.cons.injEq] at ht'
  exact ht'.2.2.2.2

/-- **C153: loaded.**  A data file is loaded exactly when its second line has four words or more and each line after the third one gives the
values of a cell of the grid. -/
theorem data_loaded {n : Ijk} (hW : n.1 * n.2.1 * n.2.2 < W) {f : File} : (∃ cols : List (Str × List D), readData n f = .ok cols) ↔
    ∃ names, Titles f names ∧ ∃ rows : List (Row D), List.Forall₂ (Gives n names.length) (f.drop 3) rows := by
  by_cases ht : ∃ names, Titles f names
  · obtain ⟨names, ht⟩ := ht
    rw [readData_eq ht]
    constructor
    · rintro ⟨cols, e⟩
      refine ⟨names, ht, ?_⟩
      rcases lines_cases hW names (f.drop 3) (names.foldl (addCol (nbCells n)) [] : List (Str × List D)) with h | ⟨_, _, _, _, _, ⟨_, e'⟩ | ⟨_, _, e'⟩⟩
      · exact h
      · rw [e] at e'; simp at e'
      · rw [e] at e'; simp at e'
    · rintro ⟨names', ht', rows, h⟩
      rw [← ht.unique ht'] at h
      obtain ⟨h1, h2⟩ := gives_forall h
      obtain ⟨cols, e, -⟩ := lines_get hW h1 h2 (names.foldl (addCol (nbCells n)) [])
      exact ⟨cols, e⟩
  · rw [no_titles ht]
    constructor
    · rintro ⟨_, h⟩; simp at h
    · rintro ⟨names, h, -⟩; exact absurd ⟨names, h⟩ ht

/-- **C153: what is loaded.**  The columns are those of the names of the second line, each once, in the order of their first appearance; each
has one value per cell, given by the last line about the cell, 0 if there is none. -/
theorem data_values {n : Ijk} (hW : n.1 * n.2.1 * n.2.2 < W) {f : File} {cols : List (Str × List D)} (h : readData n f = .ok cols)
    {names : List Str} (ht : Titles f names) {rows : List (Row D)} (hr : List.Forall₂ (Gives n names.length) (f.drop 3) rows) :
    cols.map (fun c => (c.1, c.2.length)) = names.eraseDups.map (fun m => (m, n.1 * n.2.1 * n.2.2)) ∧
    ∀ name ∈ names, ∀ c, InGrid n c → get cols name (flat n c) = some (lastValue names rows name c) := by
  rw [readData_eq ht] at h
  constructor
  · rw [lines_shape hW hr _ _ h, addCols_shape]
    simp only [List.map_nil, List.nil_append, List.any_nil, Bool.not_false, nbCells, Nat.mod_eq_of_lt hW]
    rw [List.filter_eq_self.2 fun _ _ => rfl]
  · intro name hn c hc
    obtain ⟨h1, h2⟩ := gives_forall hr
    obtain ⟨cols', e, hg⟩ := lines_get hW h1 h2 (names.foldl (addCol (nbCells n)) [])
    rw [h, Res.ok.injEq] at e
    subst e
    have hlt : flat n c < nbCells n := by
      unfold nbCells; rw [Nat.mod_eq_of_lt hW]; exact flat_lt hc
    rw [hg name c hc, get_addCols _ _ _ _ _ hlt]
    simp only [List.find?_nil, Option.isSome_none, Bool.false_eq_true, if_false, hn, if_true, Option.map_some]
    rw [fold_last hn]
    · rfl
    · intro r hr
      exact rows_length h1 r hr

/-- **C153: undefined behaviour.**  It happens exactly when the first line that does not give the values of a cell of the grid is about a
cell outside of it. -/
theorem data_ub {n : Ijk} (hW : n.1 * n.2.1 * n.2.2 < W) {f : File} : (readData n f : Res (List (Str × List D))) = .ub ↔
    ∃ names, Titles f names ∧ ∃ pre l rest, f.drop 3 = pre ++ l :: rest ∧
      (∃ rows : List (Row D), List.Forall₂ (Gives n names.length) pre rows) ∧ Outside n names.length l := by
  by_cases ht : ∃ names, Titles f names
  · obtain ⟨names, ht⟩ := ht
    rw [readData_eq ht]
    constructor
    · intro e
      refine ⟨names, ht, ?_⟩
      rcases lines_cases hW names (f.drop 3) (names.foldl (addCol (nbCells n)) [] : List (Str × List D)) with ⟨rows, h⟩ | ⟨pre, l, rest, e1, hp, ⟨ho, -⟩ | ⟨_, _, e'⟩⟩
      · obtain ⟨h1, h2⟩ := gives_forall h
        obtain ⟨cols, e', -⟩ := lines_get hW h1 h2 (names.foldl (addCol (nbCells n)) [])
        rw [e] at e'; simp at e'
      · exact ⟨pre, l, rest, e1, hp, ho⟩
      · rw [e] at e'; simp at e'
    · rintro ⟨names', ht', pre, l, rest, e1, ⟨rows, hp⟩, ho⟩
      rw [← ht.unique ht'] at hp ho
      obtain ⟨h1, h2⟩ := gives_forall hp
      obtain ⟨cols, e, -⟩ := lines_get hW h1 h2 (names.foldl (addCol (nbCells n)) [])
      rw [e1, Res.foldM'_append, e, Res.ok_bind, Res.foldM'_cons]
      rcases line_cases hW names cols l with ⟨r, hr, -⟩ | ⟨-, e'⟩ | ⟨-, -, h3⟩
      · obtain ⟨q, hq, hout⟩ := ho
        rw [Position.unique hq (IsRow.position hr.1)] at hout
        exact absurd hr.2 hout
      · rw [e']; rfl
      · exact absurd ho h3
  · rw [no_titles ht]
    constructor
    · intro h; simp at h
    · rintro ⟨names, h, -⟩; exact absurd ⟨names, h⟩ ht

/-- **C153: no other outcome** than the values, an exception or the undefined behaviour above. -/
theorem data_outcomes {n : Ijk} (hW : n.1 * n.2.1 * n.2.2 < W) (f : File) : (∃ cols : List (Str × List D), readData n f = .ok cols) ∨
    (readData n f : Res (List (Str × List D))) = .throw ∨ (readData n f : Res (List (Str × List D))) = .ub := by
  by_cases ht : ∃ names, Titles f names
  · obtain ⟨names, ht⟩ := ht
    rcases lines_cases hW names (f.drop 3) (names.foldl (addCol (nbCells n)) [] : List (Str × List D)) with h | ⟨_, _, _, _, _, ⟨_, e'⟩ | ⟨_, _, e'⟩⟩
    · exact .inl ((data_loaded hW).2 ⟨names, ht, h⟩)
    · exact .inr (.inr (by rw [readData_eq ht, e']))
    · exact .inr (.inl (by rw [readData_eq ht, e']))
  · exact .inr (.inl (no_titles ht))

/-- **C153: voxets.**  A voxet is loaded exactly when its first part is, the data file exists and is loaded as above. -/
theorem voxet_loaded {g : Geo D} {fs : Str → Option File} {folder : Str} {f : File} {grid : Grid D} : load g fs folder f = .ok grid ↔
    ∃ head path data cols, loadHead g folder f = .ok (head, path) ∧ fs path = some data ∧ readData head.size data = .ok cols ∧
      grid = { head with cols } := by
  unfold load
  simp only [Res.bind_eq_ok]
  constructor
  · rintro ⟨⟨head, path⟩, h1, data, h2, cols, h3, e⟩
    refine ⟨head, path, data, cols, h1, ?_, h3, ?_⟩
    · cases hf : fs path with
      | none => rw [hf] at h2; simp at h2
      | some d => rw [hf] at h2; simpa using h2
    · simpa using e.symm
  · rintro ⟨head, path, data, cols, h1, h2, h3, e⟩
    exact ⟨⟨head, path⟩, h1, data, by rw [h2]; rfl, cols, h3, by rw [e]; rfl⟩

/-! ## A file for each outcome -/

example : (readData (2, 2, 1) voData : Res (List (Str × List Int))) = .ok [(cs!"poro", [0, 7, 9, 0]), (cs!"perm", [0, 8, 10, 0])] := by decide +kernel

/-- A blank line is refused, as is a file without titles. -/
example : (readData (2, 2, 1) (voData ++ [[]]) : Res (List (Str × List Int))) = .throw ∧
    (readData (2, 2, 1) [cs!"*", cs!"I J K"] : Res (List (Str × List Int))) = .throw := by decide +kernel

/-- The first cell after the last one is outside. -/
example : (readData (2, 2, 1) (voData ++ [cs!"2 0 0 1 1"]) : Res (List (Str × List Int))) = .ub ∧ Outside (2, 2, 1) 2 cs!"2 0 0 1 1" := by
  refine ⟨by decide +kernel, (2, 0, 0), ⟨cs!"2", cs!"0", cs!"0", [cs!"1", cs!"1"], by decide +kernel, rfl, by decide +kernel, by decide +kernel, by decide +kernel⟩, by decide⟩

/-- A name listed twice makes one column with the value listed last. -/
example : (readData (1, 1, 1) [cs!"*", cs!"* I J K a b a", cs!"*", cs!"0 0 0 1 2 3"] : Res (List (Str × List Int))) =
    .ok [(cs!"a", [3]), (cs!"b", [2])] := by decide +kernel

end Verif.Props.VoxetData
