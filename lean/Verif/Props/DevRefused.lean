import Verif.Props.WellOutcomes
import Verif.Lemmas.FirstBad
import Mathlib.Data.List.Induction

/-!
# C170: the deviation surveys that do not load

`Props.WellOutcomes` has one line of titles.  Here the files are any: those that load, with what they give, and those that have undefined behaviour.
All the other ones are refused with an exception.  Theorems about `Model.Wells`.
-/

namespace Verif.Props.DevRefused

open Verif Verif.Gocad Verif.GocadMesh Verif.Wells Verif.Props.Wells Verif.Props.WellOutcomes Res

variable {D : Type} [Num D]

/-! ## The lines of the heading -/

/-- A line that begins as a rule. -/
def isRule (l : Str) : Bool := startsWith l cs!"#==="

/-- A line that names the well. -/
def isName (l : Str) : Bool := startsWith l cs!"# WELL NAME:"

/-- The words of the lines of titles: those after the first rule that do not name the well. -/
def titlesOf (pre : File) : List (List Str) := (((pre.dropWhile fun l => !isRule l).drop 1).filter fun l => !isName l).map split

/-- The column with a title: the last one of the last line of titles that has it. -/
def IsColumn (Ts : List (List Str)) (t : Str) (i : Nat) : Prop := ∃ Us T Vs, Ts = Us ++ T :: Vs ∧ IsLast T t i ∧ ∀ V ∈ Vs, t ∉ V

/-- The columns of the coordinates. -/
structure Columns (Ts : List (List Str)) (x y z : Nat) : Prop where
  atX : IsColumn Ts cs!"X" x
  atY : IsColumn Ts cs!"Y" y
  atZ : IsColumn Ts cs!"Z" z
  xy : x ≠ y
  xz : x ≠ z
  yz : y ≠ z

/-- After each line of titles the coordinates have different columns. -/
def Agreed (Ts : List (List Str)) : Prop := ∀ Us T Vs, Ts = Us ++ T :: Vs → 3 ≤ T.length ∧ ∃ x y z, Columns (Us ++ [T]) x y z

/-- The lines of a heading that are accepted. -/
structure Fine (pre : File) : Prop where
  rules : (pre.filter isRule).length ≤ 1
  names : ∀ l ∈ pre, isName l = true → 4 ≤ (split l).length
  titles : Agreed (titlesOf pre)

/-- The lines of a heading that have undefined behaviour after accepted ones: a name that is missing, or first titles without one of the coordinates. -/
def Wrong (pre : File) (l : Str) : Prop :=
  isRule l = false ∧ ((isName l = true ∧ (split l).length < 4) ∨
    (isName l = false ∧ pre.any isRule = true ∧ titlesOf pre = [] ∧ 3 ≤ (split l).length ∧ (cs!"X" ∉ split l ∨ cs!"Y" ∉ split l ∨ cs!"Z" ∉ split l)))

/-! ## Columns -/

/-- The column found by reading the lines of titles. -/
def colOf (Ts : List (List Str)) (t : Str) : Option Nat := Ts.foldl (fun p T => found p 0 T t) none

theorem column_concat {Ts : List (List Str)} {T : List Str} {t : Str} {i : Nat} :
    IsColumn (Ts ++ [T]) t i ↔ IsLast T t i ∨ (t ∉ T ∧ IsColumn Ts t i) := by
  constructor
  · rintro ⟨Us, U, Vs, e, h1, h2⟩
    rcases List.eq_nil_or_concat Vs with rfl | ⟨Ws, V, rfl⟩
    · have := List.append_inj' e rfl
      obtain ⟨_, e⟩ := this
      cases e
      exact .inl h1
    · rw [List.concat_eq_append] at e h2
      have e' : Ts ++ [T] = (Us ++ U :: Ws) ++ [V] := by rw [e]; simp
      obtain ⟨e1, e2⟩ := List.append_inj' e' rfl
      cases e2
      exact .inr ⟨h2 _ (by simp), Us, U, Ws, e1, h1, fun W hW => h2 W (by simp [hW])⟩
  · rintro (h | ⟨h, Us, U, Vs, rfl, h1, h2⟩)
    · exact ⟨Ts, T, [], rfl, h, by simp⟩
    · refine ⟨Us, U, Vs ++ [T], by simp, h1, ?_⟩
      intro V hV
      rcases List.mem_append.1 hV with hV | hV
      · exact h2 V hV
      · rw [List.mem_singleton.1 hV]; exact h

theorem column_nil {t : Str} {i : Nat} : ¬ IsColumn [] t i := by
  rintro ⟨_ | ⟨_, _⟩, _, _, e, _⟩ <;> cases e

theorem col_iff {Ts : List (List Str)} {t : Str} {i : Nat} : colOf Ts t = some i ↔ IsColumn Ts t i := by
  induction Ts using List.reverseRecOn generalizing i with
  | nil => simp [colOf, column_nil]
  | append_singleton Ts T ih =>
    rw [column_concat, ← ih]
    unfold colOf
    rw [List.foldl_append, List.foldl_cons, List.foldl_nil, found_spec]
    simp only [Nat.zero_add, exists_eq_right']

theorem column_unique {Ts : List (List Str)} {t : Str} {i j : Nat} (hi : IsColumn Ts t i) (hj : IsColumn Ts t j) : i = j :=
  Option.some.inj ((col_iff.2 hi).symm.trans (col_iff.2 hj))

/-! ## The state after lines that are accepted -/

/-- The heading known after some lines. -/
def stateOf (pre : File) : DevHeader :=
  { name := nameOf pre, names := (titlesOf pre).flatMap otherTitles, x := colOf (titlesOf pre) cs!"X", y := colOf (titlesOf pre) cs!"Y", z := colOf (titlesOf pre) cs!"Z" }

theorem any_false {pre : File} (h : pre.any isRule = false) : pre.dropWhile (fun l => !isRule l) = [] := by
  induction pre with
  | nil => rfl
  | cons a as ih =>
    simp only [List.any_cons, Bool.or_eq_false_iff] at h
    rw [List.dropWhile_cons, if_pos (by simp [h.1])]
    exact ih h.2

theorem titlesOf_none {pre : File} (h : pre.any isRule = false) : titlesOf pre = [] := by
  unfold titlesOf
  rw [any_false h]
  rfl

theorem titlesOf_rule {pre : File} {l : Str} (h : pre.any isRule = false) (hl : isRule l = true) : titlesOf (pre ++ [l]) = [] := by
  have : (pre ++ [l]).dropWhile (fun l => !isRule l) = [l] := by
    induction pre with
    | nil => simp [hl]
    | cons a as ih =>
      simp only [List.any_cons, Bool.or_eq_false_iff] at h
      rw [List.cons_append, List.dropWhile_cons, if_pos (by simp [h.1])]
      exact ih h.2
  unfold titlesOf
  rw [this]
  rfl

theorem titlesOf_after {pre : File} {l : Str} (h : pre.any isRule = true) :
    titlesOf (pre ++ [l]) = titlesOf pre ++ (if isName l = true then [] else [split l]) := by
  have : ∃ r rs, pre.dropWhile (fun l => !isRule l) = r :: rs ∧ (pre ++ [l]).dropWhile (fun l => !isRule l) = r :: (rs ++ [l]) := by
    induction pre with
    | nil => simp at h
    | cons a as ih =>
      by_cases ha : isRule a = true
      · exact ⟨a, as, by simp [ha], by simp [ha]⟩
      · simp only [List.any_cons, Bool.or_eq_true, ha, Bool.false_eq_true, false_or] at h
        obtain ⟨r, rs, e1, e2⟩ := ih h
        refine ⟨r, rs, ?_, ?_⟩
        · rw [List.dropWhile_cons, if_pos (by simp [ha])]; exact e1
        · rw [List.cons_append, List.dropWhile_cons, if_pos (by simp [ha])]; exact e2
  obtain ⟨r, rs, e1, e2⟩ := this
  unfold titlesOf
  rw [e1, e2]
  simp only [List.drop_one, List.tail_cons, List.filter_append, List.map_append]
  congr 1
  by_cases hn : isName l = true <;> simp [hn]

theorem nameOf_concat (pre : File) (l : Str) : nameOf (pre ++ [l]) = if isName l = true then (split l).getD 3 [] else nameOf pre := by
  unfold nameOf
  rw [List.filter_append]
  by_cases h : isName l = true
  · have h' : startsWith l cs!"# WELL NAME:" = true := h
    rw [if_pos h]
    simp [h']
  · have h' : ¬ startsWith l cs!"# WELL NAME:" = true := h
    rw [if_neg h]
    simp [h']

theorem rule_not_name {l : Str} (h : isRule l = true) : isName l = false := by
  by_contra hn
  have hn : isName l = true := by simpa using hn
  unfold isRule at h
  unfold isName at hn
  match l, h, hn with
  | [], h, _ => revert h; decide
  | [a], h, _ => simp [startsWith] at h
  | a :: b :: l, h, hn =>
    simp [startsWith] at h hn
    have := h.2.1.trans hn.2.1.symm
    revert this
    decide

theorem agreed_nil : Agreed [] := by
  intro Us T Vs e
  simp at e

theorem agreed_concat {Ts : List (List Str)} {T : List Str} : Agreed (Ts ++ [T]) ↔ Agreed Ts ∧ 3 ≤ T.length ∧ ∃ x y z, Columns (Ts ++ [T]) x y z := by
  constructor
  · intro h
    refine ⟨fun Us U Vs e => h Us U (Vs ++ [T]) (by rw [e]; simp), h Ts T [] rfl⟩
  · rintro ⟨h1, h2⟩ Us U Vs e
    rcases List.eq_nil_or_concat Vs with rfl | ⟨Ws, V, rfl⟩
    · obtain ⟨e1, e2⟩ := List.append_inj' e rfl
      rw [← e1, ← (List.cons.inj e2).1]
      exact h2
    · rw [List.concat_eq_append] at e
      have e' : Ts ++ [T] = (Us ++ U :: Ws) ++ [V] := by rw [e]; simp
      obtain ⟨e1, -⟩ := List.append_inj' e' rfl
      exact h1 Us U Ws e1

theorem check_columns {h : DevHeader} {x y z : Nat} (hx : h.x = some x) (hy : h.y = some y) (hz : h.z = some z) :
    devCheck h = if x ≠ y ∧ x ≠ z ∧ y ≠ z then .ok () else .throw := by
  unfold devCheck
  rw [hx, hy, hz]
  simp only [initialised, Res.ok_bind]
  by_cases h1 : x = y
  · rw [if_pos h1, if_neg (fun c => c.1 h1)]
  · rw [if_neg h1]
    by_cases h2 : x = z
    · simp [h2]
    · by_cases h3 : y = z
      · simp [h3]
      · rw [if_pos ⟨h1, h2, h3⟩, show (x != z && y != z) = true by simp [h2, h3], Res.check_true]

/-- The test after a line of titles. -/
theorem check_titles {Ts : List (List Str)} (hT : Agreed Ts) (T : List Str) {h : DevHeader} (hx : h.x = colOf (Ts ++ [T]) cs!"X")
    (hy : h.y = colOf (Ts ++ [T]) cs!"Y") (hz : h.z = colOf (Ts ++ [T]) cs!"Z") :
    (devCheck h = .ok () ∧ ∃ x y z, Columns (Ts ++ [T]) x y z) ∨
      (devCheck h = .ub ∧ Ts = [] ∧ (cs!"X" ∉ T ∨ cs!"Y" ∉ T ∨ cs!"Z" ∉ T)) ∨
      (devCheck h = .throw ∧ (¬ ∃ x y z, Columns (Ts ++ [T]) x y z) ∧ Ts ≠ []) := by
  have hmem : ∀ {t : Str} {U : List Str}, t ∈ U → ∀ Us, ∃ i, IsColumn (Us ++ [U]) t i := by
    intro t U ht Us
    obtain ⟨i, hi⟩ := last_of_mem ht
    exact ⟨i, column_concat.2 (.inl hi)⟩
  rcases List.eq_nil_or_concat Ts with rfl | ⟨Us, U, rfl⟩
  · have e : devCheck h = devCheck (heading [] T) := by
      unfold devCheck
      rw [hx, hy, hz]
      rfl
    rw [check_heading] at e
    by_cases hc : cs!"X" ∈ T ∧ cs!"Y" ∈ T ∧ cs!"Z" ∈ T
    · rw [if_pos hc] at e
      obtain ⟨x, ix⟩ := last_of_mem hc.1
      obtain ⟨y, iy⟩ := last_of_mem hc.2.1
      obtain ⟨z, iz⟩ := last_of_mem hc.2.2
      refine .inl ⟨e, x, y, z, column_concat.2 (.inl ix), column_concat.2 (.inl iy), column_concat.2 (.inl iz), ?_, ?_, ?_⟩
      · rintro rfl
        have := ix.1.symm.trans iy.1
        revert this; decide
      · rintro rfl
        have := ix.1.symm.trans iz.1
        revert this; decide
      · rintro rfl
        have := iy.1.symm.trans iz.1
        revert this; decide
    · rw [if_neg hc] at e
      refine .inr (.inl ⟨e, rfl, ?_⟩)
      by_contra hn
      simp only [not_or, not_not] at hn
      exact hc hn
  · rw [List.concat_eq_append] at hT hx hy hz ⊢
    obtain ⟨_, _, x0, y0, z0, hc⟩ := agreed_concat.1 hT
    have hstep : ∀ {t : Str} {i : Nat}, IsColumn (Us ++ [U]) t i → ∃ j, IsColumn (Us ++ [U] ++ [T]) t j := by
      intro t i hi
      by_cases ht : t ∈ T
      · exact hmem ht _
      · exact ⟨i, column_concat.2 (.inr ⟨ht, hi⟩)⟩
    obtain ⟨x, ix⟩ := hstep hc.atX
    obtain ⟨y, iy⟩ := hstep hc.atY
    obtain ⟨z, iz⟩ := hstep hc.atZ
    have e := check_columns (hx.trans (col_iff.2 ix)) (hy.trans (col_iff.2 iy)) (hz.trans (col_iff.2 iz))
    by_cases hd : x ≠ y ∧ x ≠ z ∧ y ≠ z
    · rw [if_pos hd] at e
      exact .inl ⟨e, x, y, z, ix, iy, iz, hd.1, hd.2.1, hd.2.2⟩
    · rw [if_neg hd] at e
      refine .inr (.inr ⟨e, ?_, by simp⟩)
      rintro ⟨x', y', z', c⟩
      rw [← column_unique ix c.atX, ← column_unique iy c.atY, ← column_unique iz c.atZ] at c
      exact hd ⟨c.xy, c.xz, c.yz⟩

/-! ## Reading one line of the heading -/

theorem fine_init {pre : File} {l : Str} (h : Fine (pre ++ [l])) : Fine pre := by
  refine ⟨?_, fun x hx => h.names x (by simp [hx]), ?_⟩
  · have := h.rules
    rw [List.filter_append, List.length_append] at this
    omega
  · by_cases hr : pre.any isRule = true
    · have := h.titles
      rw [titlesOf_after hr] at this
      by_cases hn : isName l = true
      · rwa [if_pos hn, List.append_nil] at this
      · rw [if_neg hn] at this
        exact (agreed_concat.1 this).1
    · rw [titlesOf_none (by simpa using hr)]
      exact agreed_nil

theorem rules_any {pre : File} : pre.any isRule = false ↔ (pre.filter isRule).length = 0 := by
  rw [List.length_eq_zero_iff, List.filter_eq_nil_iff]
  simp

/-- The loop after accepted lines, on one more. -/
inductive Step (pre : File) (l : Str) (ls : File) : Prop
  | ends (h : isRule l = true) (hp : pre.any isRule = true)
      (e : devHeaderLoop (stateOf pre) (!pre.any isRule) (l :: ls) = .ok (stateOf pre, ls))
  | goes (h : Fine (pre ++ [l])) (e : devHeaderLoop (stateOf pre) (!pre.any isRule) (l :: ls) = devHeaderLoop (stateOf (pre ++ [l])) (!(pre ++ [l]).any isRule) ls)
  | wrong (h : Wrong pre l) (hn : ¬ Fine (pre ++ [l])) (e : devHeaderLoop (stateOf pre) (!pre.any isRule) (l :: ls) = .ub)
  | refused (h : ¬ Wrong pre l) (hn : ¬ Fine (pre ++ [l])) (hr : isRule l = false) (e : devHeaderLoop (stateOf pre) (!pre.any isRule) (l :: ls) = .throw)

theorem state_keep {pre : File} {l : Str} (hn : isName l = false) (ht : titlesOf (pre ++ [l]) = titlesOf pre) : stateOf (pre ++ [l]) = stateOf pre := by
  unfold stateOf
  rw [nameOf_concat, ht, hn]
  rfl

theorem step {pre : File} (hp : Fine pre) (l : Str) (ls : File) : Step pre l ls := by
  by_cases hr : isRule l = true
  · have hn := rule_not_name hr
    by_cases ha : pre.any isRule = true
    · refine .ends hr ha ?_
      rw [ha, devHeaderLoop, if_pos (show startsWith l cs!"#===" = true from hr)]
      rfl
    · have ha : pre.any isRule = false := by simpa using ha
      have ht := titlesOf_rule ha hr
      have hs := state_keep hn (ht.trans (titlesOf_none ha).symm)
      refine .goes ⟨?_, ?_, by rw [ht]; exact agreed_nil⟩ ?_
      · rw [List.filter_append, List.length_append, rules_any.1 ha]
        simp [hr]
      · intro x hx hxn
        rcases List.mem_append.1 hx with hx | hx
        · exact hp.names x hx hxn
        · rw [List.mem_singleton.1 hx, hn] at hxn; cases hxn
      · rw [hs, ha, devHeaderLoop, if_pos (show startsWith l cs!"#===" = true from hr)]
        simp [ha, hr]
  · have hr : isRule l = false := by simpa using hr
    have hr' : ¬ startsWith l cs!"#===" = true := by
      have : startsWith l cs!"#===" = false := hr
      simp [this]
    have hany : (pre ++ [l]).any isRule = pre.any isRule := by simp [hr]
    have hrules : ((pre ++ [l]).filter isRule).length ≤ 1 := by
      rw [List.filter_append, List.length_append]
      have := hp.rules
      simpa [hr] using this
    by_cases hn : isName l = true
    · have hn' : startsWith l cs!"# WELL NAME:" = true := hn
      have ht : titlesOf (pre ++ [l]) = titlesOf pre := by
        by_cases ha : pre.any isRule = true
        · rw [titlesOf_after ha, if_pos hn, List.append_nil]
        · have ha : pre.any isRule = false := by simpa using ha
          rw [titlesOf_none ha, titlesOf_none (hany.trans ha)]
      by_cases h4 : 4 ≤ (split l).length
      · refine .goes ⟨hrules, ?_, by rw [ht]; exact hp.titles⟩ ?_
        · intro x hx hxn
          rcases List.mem_append.1 hx with hx | hx
          · exact hp.names x hx hxn
          · rw [List.mem_singleton.1 hx]; exact h4
        · rw [hany, devHeaderLoop, if_neg hr', if_pos hn', Res.index_of_lt (by omega), Res.ok_bind]
          congr 1
          unfold stateOf
          rw [nameOf_concat, ht, if_pos hn]
          congr 1
          simp only [List.getD_eq_getElem?_getD]
          rw [List.getElem?_eq_getElem (by omega)]
          rfl
      · refine .wrong ⟨hr, .inl ⟨hn, by omega⟩⟩ (fun hf => h4 (hf.names l (by simp) hn)) ?_
        rw [devHeaderLoop, if_neg hr', if_pos hn', Res.index_ub_iff.2 (by omega)]
        rfl
    · have hn : isName l = false := by simpa using hn
      have hn' : ¬ startsWith l cs!"# WELL NAME:" = true := by
        have : startsWith l cs!"# WELL NAME:" = false := hn
        simp [this]
      have hnames : ∀ x ∈ pre ++ [l], isName x = true → 4 ≤ (split x).length := by
        intro x hx hxn
        rcases List.mem_append.1 hx with hx | hx
        · exact hp.names x hx hxn
        · rw [List.mem_singleton.1 hx, hn] at hxn; cases hxn
      by_cases ha : pre.any isRule = true
      · have ht : titlesOf (pre ++ [l]) = titlesOf pre ++ [split l] := by
          rw [titlesOf_after ha, if_neg (by simp [hn])]
        have hstate : devTitles (stateOf pre) 0 (split l) = stateOf (pre ++ [l]) := by
          rw [titles_found]
          unfold stateOf colOf
          rw [nameOf_concat, ht, hn]
          simp [List.foldl_append]
        have hloop : devHeaderLoop (stateOf pre) (!pre.any isRule) (l :: ls) =
            (Res.check (3 ≤ (split l).length) >>= fun _ => devCheck (stateOf (pre ++ [l])) >>= fun _ => devHeaderLoop (stateOf (pre ++ [l])) false ls) := by
          rw [devHeaderLoop, if_neg hr', if_neg hn', ha, hstate]
          rfl
        by_cases h3 : 3 ≤ (split l).length
        · rw [decide_eq_true h3, Res.check_true, Res.ok_bind] at hloop
          rcases check_titles hp.titles (split l) (h := stateOf (pre ++ [l])) (by rw [← ht]; rfl) (by rw [← ht]; rfl) (by rw [← ht]; rfl) with
            ⟨e, hc⟩ | ⟨e, h0, hm⟩ | ⟨e, hno, h0⟩
          · refine .goes ⟨hrules, hnames, ?_⟩ ?_
            · rw [ht]; exact agreed_concat.2 ⟨hp.titles, h3, hc⟩
            · rw [hloop, e, Res.ok_bind, hany, ha]
              rfl
          · refine .wrong ⟨hr, .inr ⟨hn, ha, h0, h3, hm⟩⟩ ?_ ?_
            · intro hf
              have := hf.titles
              rw [ht, h0] at this
              obtain ⟨_, _, x, y, z, c⟩ := agreed_concat.1 this
              have mem : ∀ {t : Str} {i : Nat}, IsColumn ([] ++ [split l]) t i → t ∈ split l := by
                intro t i hi
                rcases column_concat.1 hi with h | ⟨_, h⟩
                · exact List.mem_of_getElem? h.1
                · exact absurd h column_nil
              rcases hm with h | h | h
              · exact h (mem c.atX)
              · exact h (mem c.atY)
              · exact h (mem c.atZ)
            · rw [hloop, e]; rfl
          · refine .refused ?_ ?_ hr ?_
            · rintro ⟨_, ⟨h, _⟩ | ⟨_, _, h, _⟩⟩
              · rw [hn] at h; cases h
              · exact h0 h
            · intro hf
              have := hf.titles
              rw [ht] at this
              exact hno (agreed_concat.1 this).2.2
            · rw [hloop, e]; rfl
        · refine .refused ?_ ?_ hr ?_
          · rintro ⟨_, ⟨h, _⟩ | ⟨_, _, _, h, _⟩⟩
            · rw [hn] at h; cases h
            · exact h3 h
          · intro hf
            have := hf.titles
            rw [ht] at this
            exact h3 (agreed_concat.1 this).2.1
          · rw [hloop, decide_eq_false h3]; rfl
      · have ha : pre.any isRule = false := by simpa using ha
        have ht : titlesOf (pre ++ [l]) = titlesOf pre := by rw [titlesOf_none ha, titlesOf_none (hany.trans ha)]
        refine .goes ⟨hrules, hnames, by rw [ht]; exact hp.titles⟩ ?_
        rw [hany, devHeaderLoop, if_neg hr', if_neg hn', ha, state_keep hn ht]
        rfl

theorem fine_nil : Fine [] := ⟨by simp, by simp, agreed_nil⟩

/-- The loop after accepted lines. -/
theorem loop_fine {pre : File} (h : Fine pre) (rest : File) :
    devHeaderLoop {} true (pre ++ rest) = devHeaderLoop (stateOf pre) (!pre.any isRule) rest := by
  induction pre using List.reverseRecOn generalizing rest with
  | nil => rfl
  | append_singleton pre l ih =>
    have hp := fine_init h
    rw [List.append_assoc, ih hp]
    cases step hp l rest with
    | ends hr ha e =>
      exfalso
      have := h.rules
      rw [List.filter_append, List.length_append] at this
      have h1 : (pre.filter isRule).length ≠ 0 := by
        intro h0
        rw [rules_any.2 h0] at ha
        cases ha
      rw [List.filter_cons, if_pos hr] at this
      simp only [List.filter_nil, List.length_singleton] at this
      omega
    | goes _ e => exact e
    | wrong _ hn _ => exact absurd h hn
    | refused _ hn _ _ => exact absurd h hn

/-! ## The heading -/

/-- A heading that is read: accepted lines with a rule, up to a second rule. -/
def Headed (f pre rows : File) : Prop :=
  ∃ first rule2, f = first :: (pre ++ rule2 :: rows) ∧ startsWith first cs!"# WELL TRACE FROM PETREL" = true ∧ Fine pre ∧ pre.any isRule = true ∧ isRule rule2 = true

/-- A heading with undefined behaviour. -/
def BadHeading (f : File) : Prop :=
  ∃ first pre l post, f = first :: (pre ++ l :: post) ∧ startsWith first cs!"# WELL TRACE FROM PETREL" = true ∧ Fine pre ∧ Wrong pre l

theorem loop_cases (body : File) : ∀ pre, Fine pre →
    (∃ more rule2 rows, body = more ++ rule2 :: rows ∧ Fine (pre ++ more) ∧ (pre ++ more).any isRule = true ∧ isRule rule2 = true ∧
      devHeaderLoop (stateOf pre) (!pre.any isRule) body = .ok (stateOf (pre ++ more), rows)) ∨
    (∃ more l post, body = more ++ l :: post ∧ Fine (pre ++ more) ∧ Wrong (pre ++ more) l ∧ devHeaderLoop (stateOf pre) (!pre.any isRule) body = .ub) ∨
    devHeaderLoop (stateOf pre) (!pre.any isRule) body = .throw := by
  induction body with
  | nil => intro pre _; exact .inr (.inr (by rw [devHeaderLoop]))
  | cons l ls ih =>
    intro pre hp
    cases step hp l ls with
    | ends hr ha e => exact .inl ⟨[], l, ls, rfl, by simpa using hp, by simpa using ha, hr, by rw [e, List.append_nil]⟩
    | goes h e =>
      rw [e]
      rcases ih _ h with ⟨more, r, rows, rfl, h1, h2, h3, h4⟩ | ⟨more, x, post, rfl, h1, h2, h3⟩ | h1
      · refine .inl ⟨l :: more, r, rows, rfl, ?_, ?_, h3, ?_⟩
        · simpa using h1
        · simpa using h2
        · rw [h4]; simp
      · refine .inr (.inl ⟨l :: more, x, post, rfl, ?_, ?_, h3⟩)
        · simpa using h1
        · simpa using h2
      · exact .inr (.inr h1)
    | wrong h _ e => exact .inr (.inl ⟨[], l, ls, rfl, by simpa using hp, by simpa using h, e⟩)
    | refused _ _ _ e => exact .inr (.inr e)

theorem heading_cases (f : File) :
    (∃ pre rows, Headed f pre rows ∧ devHeader f = .ok (stateOf pre, rows)) ∨ (BadHeading f ∧ devHeader f = .ub) ∨ devHeader f = .throw := by
  cases f with
  | nil => exact .inr (.inr rfl)
  | cons first body =>
    unfold devHeader checkKeyword
    by_cases hf : startsWith first cs!"# WELL TRACE FROM PETREL" = true
    · simp only [hf, if_true, Res.ok_bind]
      rcases loop_cases body [] fine_nil with ⟨more, r, rows, rfl, h1, h2, h3, h4⟩ | ⟨more, x, post, rfl, h1, h2, h3⟩ | h1
      · exact .inl ⟨more, rows, ⟨first, r, rfl, hf, h1, h2, h3⟩, h4⟩
      · exact .inr (.inl ⟨⟨first, more, x, post, rfl, hf, h1, h2⟩, h3⟩)
      · exact .inr (.inr h1)
    · simp only [hf]
      exact .inr (.inr rfl)

theorem headed_read {f pre rows : File} (h : Headed f pre rows) : devHeader f = .ok (stateOf pre, rows) := by
  obtain ⟨first, r, rfl, hf, h1, h2, h3⟩ := h
  unfold devHeader checkKeyword
  simp only [hf, if_true, Res.ok_bind]
  rw [loop_fine h1]
  cases step h1 r rows with
  | ends _ _ e => exact e
  | goes h _ =>
    exfalso
    have h4 := h.rules
    rw [List.filter_append, List.length_append] at h4
    have h5 : (pre.filter isRule).length ≠ 0 := by
      intro h0
      rw [rules_any.2 h0] at h2
      cases h2
    rw [List.filter_cons, if_pos h3] at h4
    simp only [List.filter_nil, List.length_singleton] at h4
    omega
  | wrong h _ _ => rw [h.1] at h3; cases h3
  | refused _ _ h _ => rw [h] at h3; cases h3

theorem bad_read {f : File} (h : BadHeading f) : devHeader f = .ub := by
  obtain ⟨first, pre, l, post, rfl, hf, h1, h2⟩ := h
  unfold devHeader checkKeyword
  simp only [hf, if_true, Res.ok_bind]
  rw [loop_fine h1]
  cases step h1 l post with
  | ends hr _ _ => rw [h2.1] at hr; cases hr
  | goes h _ =>
    exfalso
    rcases h2.2 with ⟨hn, h4⟩ | ⟨hn, ha, h0, h3, hm⟩
    · have := h.names l (by simp) hn
      omega
    · have := h.titles
      rw [titlesOf_after ha, if_neg (by simp [hn]), h0] at this
      obtain ⟨_, _, x, y, z, c⟩ := agreed_concat.1 this
      have mem : ∀ {t : Str} {i : Nat}, IsColumn ([] ++ [split l]) t i → t ∈ split l := by
        intro t i hi
        rcases column_concat.1 hi with h | ⟨_, h⟩
        · exact List.mem_of_getElem? h.1
        · exact absurd h column_nil
      rcases hm with h | h | h
      · exact h (mem c.atX)
      · exact h (mem c.atY)
      · exact h (mem c.atZ)
  | wrong _ _ e => exact e
  | refused h _ _ _ => exact absurd h2 h

theorem headed_iff {f pre rows : File} (h : Headed f pre rows) {s : DevHeader} {r : File} (e : devHeader f = .ok (s, r)) : s = stateOf pre ∧ r = rows := by
  have := Res.ok.inj (e.symm.trans (headed_read h))
  exact ⟨(Prod.mk.inj this).1, (Prod.mk.inj this).2⟩

/-! ## The rows -/

/-- A number. -/
def IsReal (D : Type) [Num D] (w : Str) : Prop := ∃ v : D, Num.parse w = some v

/-- A row with undefined behaviour: it has the number of values expected, and one of the columns of the coordinates is beyond them, the values read before it
being numbers. -/
def BadRow (D : Type) [Num D] (names : List Str) (x y z : Nat) (l : Str) : Prop :=
  (split l).length = names.length + 3 ∧ ((split l).length ≤ x ∨ ∃ a, (split l)[x]? = some a ∧ IsReal D a ∧
    ((split l).length ≤ y ∨ ∃ b, (split l)[y]? = some b ∧ IsReal D b ∧ (split l).length ≤ z))

theorem readDouble_cases (t : Str) : (∃ d : D, Num.parse t = some d ∧ readDouble t = .ok d) ∨ (¬ IsReal D t ∧ (readDouble t : Res D) = .throw) := by
  unfold readDouble IsReal
  cases (Num.parse t : Option D) with
  | some d => exact .inl ⟨d, rfl, rfl⟩
  | none => exact .inr ⟨by simp, rfl⟩

theorem row_cases {h : DevHeader} {x y z : Nat} (ex : h.x = some x) (ey : h.y = some y) (ez : h.z = some z)
    (hxy : x ≠ y) (hxz : x ≠ z) (hyz : y ≠ z) (l : Str) :
    ((devRow h l : Res (Pt D × List (Str × D))) = .ub ↔ BadRow D h.names x y z l) ∧ (devRow h l : Res (Pt D × List (Str × D))) ≠ .diverge := by
  unfold devRow devPoint BadRow
  simp only [ex, ey, ez, initialised, Res.ok_bind]
  by_cases hl : (split l).length = h.names.length + 3
  swap
  · rw [beq_eq_false_iff_ne.2 hl]
    exact ⟨⟨fun e => by simp at e, fun e => absurd e.1 hl⟩, by simp⟩
  rw [show ((split l).length == h.names.length + 3) = true by rw [hl]; exact beq_self_eq_true _]
  simp only [Res.check_true, Res.ok_bind, hl, true_and]
  rw [← hl]
  by_cases lx : (split l).length ≤ x
  · rw [Res.index_ub_iff.2 lx]
    exact ⟨⟨fun _ => .inl lx, fun _ => rfl⟩, by simp⟩
  have lx' : x < (split l).length := by omega
  rw [Res.index_of_lt lx', Res.ok_bind]
  have gx := List.getElem?_eq_getElem lx'
  rcases readDouble_cases (D := D) ((split l)[x]) with ⟨a, pa, ra⟩ | ⟨na, ra⟩
  swap
  · rw [ra]
    refine ⟨⟨fun e => by simp at e, ?_⟩, by simp⟩
    rintro (h1 | ⟨t, h1, h2, _⟩)
    · exact absurd h1 lx
    · rw [gx] at h1; rw [← Option.some.inj h1] at h2; exact absurd h2 na
  rw [ra, Res.ok_bind]
  by_cases ly : (split l).length ≤ y
  · rw [Res.index_ub_iff.2 ly]
    exact ⟨⟨fun _ => .inr ⟨_, gx, ⟨a, pa⟩, .inl ly⟩, fun _ => rfl⟩, by simp⟩
  have ly' : y < (split l).length := by omega
  rw [Res.index_of_lt ly', Res.ok_bind]
  have gy := List.getElem?_eq_getElem ly'
  rcases readDouble_cases (D := D) ((split l)[y]) with ⟨b, pb, rb⟩ | ⟨nb, rb⟩
  swap
  · rw [rb]
    refine ⟨⟨fun e => by simp at e, ?_⟩, by simp⟩
    rintro (h1 | ⟨t, h1, h2, h3 | ⟨u, h3, h4, _⟩⟩)
    · exact absurd h1 lx
    · exact absurd h3 ly
    · rw [gy] at h3; rw [← Option.some.inj h3] at h4; exact absurd h4 nb
  rw [rb, Res.ok_bind]
  by_cases lz : (split l).length ≤ z
  · rw [Res.index_ub_iff.2 lz]
    exact ⟨⟨fun _ => .inr ⟨_, gx, ⟨a, pa⟩, .inr ⟨_, gy, ⟨b, pb⟩, lz⟩⟩, fun _ => rfl⟩, by simp⟩
  have lz' : z < (split l).length := by omega
  have hno : ¬ ((split l).length ≤ x ∨ ∃ a, (split l)[x]? = some a ∧ IsReal D a ∧
      ((split l).length ≤ y ∨ ∃ b, (split l)[y]? = some b ∧ IsReal D b ∧ (split l).length ≤ z)) := by
    rintro (h1 | ⟨_, _, _, h3 | ⟨_, _, _, h5⟩⟩)
    · exact lx h1
    · exact ly h3
    · exact lz h5
  rw [Res.index_of_lt lz', Res.ok_bind]
  rcases readDouble_cases (D := D) ((split l)[z]) with ⟨c, pc, rc⟩ | ⟨nc, rc⟩
  swap
  · rw [rc]
    exact ⟨⟨fun e => by simp at e, fun e => absurd e hno⟩, by simp⟩
  rw [rc]
  simp only [Res.ok_bind, Res.pure_eq]
  have hcnt : (((split l).zipIdx 0).filter fun e => !(e.2 == x || e.2 == y || e.2 == z)).length = h.names.length := by
    have := length_without hxy hxz hyz 0 (split l)
    rw [if_pos (by omega), if_pos (by omega), if_pos (by omega)] at this
    omega
  rcases attrs_cases (D := D) ex ey ez 0 h.names (split l) hcnt with ⟨r, hr⟩ | hr
  · rw [hr]
    exact ⟨⟨fun e => by simp at e, fun e => absurd e hno⟩, by simp⟩
  · rw [hr]
    exact ⟨⟨fun e => by simp at e, fun e => absurd e hno⟩, by simp⟩

/-- Rows without any line of titles. -/
theorem row_untitled {h : DevHeader} (ex : h.x = none) (en : h.names = []) (l : Str) :
    (devRow h l : Res (Pt D × List (Str × D))) = if (split l).length = 3 then .ub else .throw := by
  unfold devRow devPoint
  rw [ex, en]
  dsimp only
  by_cases h3 : (split l).length = 3
  · rw [if_pos h3, show ((split l).length == ([] : List Str).length + 3) = true by rw [h3]; rfl]
    rfl
  · rw [if_neg h3, show ((split l).length == ([] : List Str).length + 3) = false by simpa using h3]
    rfl

theorem chain_cases (n : Nat) : (chainEdges n = .ub ↔ n = 0) ∧ chainEdges n ≠ .diverge := by
  by_cases hn : n = 0
  · rw [hn]
    refine ⟨⟨fun _ => rfl, fun _ => chainEdges_zero⟩, ?_⟩
    rw [chainEdges_zero]; simp
  · have h1 : sub32 n 1 ≤ n - 1 := by
      unfold sub32 W
      omega
    have : chainEdges n = .ok ((List.range (sub32 n 1)).map fun i => (i, i + 1)) := by
      unfold chainEdges
      apply Res.mapM'_ok
      intro i hi
      rw [List.mem_range] at hi
      rw [if_pos (by omega)]
    rw [this]
    exact ⟨⟨fun e => by simp at e, fun e => absurd e hn⟩, by simp⟩

/-! ## The whole file -/

theorem columns_of {pre : File} (h : Fine pre) (hne : titlesOf pre ≠ []) : ∃ x y z, Columns (titlesOf pre) x y z := by
  rcases List.eq_nil_or_concat (titlesOf pre) with h0 | ⟨Us, T, e⟩
  · exact absurd h0 hne
  · have ht := h.titles
    rw [List.concat_eq_append] at e
    rw [e] at ht ⊢
    exact (agreed_concat.1 ht).2.2

/-- The names of the other columns. -/
def namesOf (pre : File) : List Str := (titlesOf pre).flatMap otherTitles

theorem load_eq (f : File) : (loadDev f : Res (Well D)) = (devHeader f >>= fun r => Res.mapM' (devRow r.1) r.2 >>= fun rows =>
    chainEdges rows.length >>= fun edges => .ok { name := some r.1.name, points := rows.map Prod.fst, edges, vals := rows.map Prod.snd }) := rfl

/-- **C170, the surveys that load, whatever the file.**  The heading has two rules, with accepted names and titles between them, at least one line of titles, and
every row gives a point and its values. -/
theorem dev_loads_iff_all (f : File) (hW : f.length ≤ W) (w : Well D) :
    loadDev f = .ok w ↔ ∃ pre rows x y z, Headed f pre rows ∧ Columns (titlesOf pre) x y z ∧ rows ≠ [] ∧
      ∃ rs, List.Forall₂ (GivesNamed (namesOf pre) x y z) rows rs ∧ w = wellOf (nameOf pre) rs := by
  rw [load_eq]
  constructor
  · intro e
    obtain ⟨r, e1, e⟩ := Res.bind_eq_ok.1 e
    obtain ⟨rs, e2, e⟩ := Res.bind_eq_ok.1 e
    obtain ⟨es, e3, e⟩ := Res.bind_eq_ok.1 e
    rcases heading_cases f with ⟨pre, rows, hh, e4⟩ | ⟨_, e4⟩ | e4
    · have := Res.ok.inj (e1.symm.trans e4)
      subst this
      dsimp only at e2 e
      have hne : rows ≠ [] := by
        rintro rfl
        rw [Res.mapM'_nil] at e2
        rw [← Res.ok.inj e2, List.length_nil, chainEdges_zero] at e3
        cases e3
      obtain ⟨first, r2, hf, _, hfine, _, _⟩ := hh
      have ht : titlesOf pre ≠ [] := by
        intro h0
        cases rows with
        | nil => exact hne rfl
        | cons l ls =>
          rw [Res.mapM'_cons, row_untitled (by simp [stateOf, h0, colOf]) (by simp [stateOf, h0])] at e2
          split at e2 <;> simp at e2
      obtain ⟨x, y, z, c⟩ := columns_of hfine ht
      have h1 := (mapM'_forall (fun l r => row_read (h := stateOf pre) (col_iff.2 c.atX) (col_iff.2 c.atY) (col_iff.2 c.atZ) rfl c.xy c.xz c.yz l r)).1 e2
      have hl := h1.length_eq
      have hlen : rows.length ≤ W := by
        rw [hf] at hW
        simp only [List.length_cons, List.length_append] at hW
        omega
      rw [chainEdges_pos (by rw [← hl]; exact List.length_pos_iff.2 hne) (by omega)] at e3
      refine ⟨pre, rows, x, y, z, ⟨first, r2, hf, ‹_›, hfine, ‹_›, ‹_›⟩, c, hne, rs, h1, ?_⟩
      rw [← Res.ok.inj e, ← Res.ok.inj e3]
      rfl
    · rw [e4] at e1; cases e1
    · rw [e4] at e1; cases e1
  · rintro ⟨pre, rows, x, y, z, hh, c, hne, rs, h1, rfl⟩
    rw [headed_read hh, Res.ok_bind]
    have hl := h1.length_eq
    have hlen : rows.length ≤ W := by
      obtain ⟨first, r2, hf, _⟩ := hh
      rw [hf] at hW
      simp only [List.length_cons, List.length_append] at hW
      omega
    have e2 := (mapM'_forall (fun l r => row_read (h := stateOf pre) (col_iff.2 c.atX) (col_iff.2 c.atY) (col_iff.2 c.atZ) rfl c.xy c.xz c.yz l r)).2 h1
    dsimp only
    rw [e2, Res.ok_bind, chainEdges_pos (by rw [← hl]; exact List.length_pos_iff.2 hne) (by omega)]
    rfl

/-- A table with undefined behaviour: it is empty, or without titles and its first row has three words, or its first row that gives nothing reads a column beyond
its values. -/
def BadTable (D : Type) [Num D] (pre rows : File) : Prop :=
  rows = [] ∨ (titlesOf pre = [] ∧ ∃ l ls, rows = l :: ls ∧ (split l).length = 3) ∨
    ∃ x y z, Columns (titlesOf pre) x y z ∧ FirstBad (fun l => ∃ r : Pt D × List (Str × D), GivesNamed (namesOf pre) x y z l r) (BadRow D (namesOf pre) x y z) rows

/-- **C170, the surveys with undefined behaviour**: exactly those with a bad heading or a bad table. -/
theorem dev_ub_iff (f : File) : (loadDev f : Res (Well D)) = .ub ↔ BadHeading f ∨ ∃ pre rows, Headed f pre rows ∧ BadTable D pre rows := by
  have table : ∀ {pre rows : File}, Headed f pre rows → ((loadDev f : Res (Well D)) = .ub ↔ BadTable D pre rows) := by
    intro pre rows hh
    rw [load_eq, headed_read hh, Res.ok_bind]
    dsimp only
    obtain ⟨_, _, _, _, hfine, _, _⟩ := hh
    unfold BadTable
    cases rows with
    | nil =>
      rw [Res.mapM'_nil, Res.ok_bind, List.length_nil, chainEdges_zero]
      exact ⟨fun _ => .inl rfl, fun _ => rfl⟩
    | cons l ls =>
      by_cases ht : titlesOf pre = []
      · rw [Res.mapM'_cons, row_untitled (by simp [stateOf, ht, colOf]) (by simp [stateOf, ht])]
        by_cases h3 : (split l).length = 3
        · rw [if_pos h3]
          exact ⟨fun _ => .inr (.inl ⟨ht, l, ls, rfl, h3⟩), fun _ => rfl⟩
        · rw [if_neg h3]
          refine ⟨fun e => by simp at e, ?_⟩
          rintro (h | ⟨_, l', ls', e, h⟩ | ⟨x, _, _, c, _⟩)
          · cases h
          · cases e; exact absurd h h3
          · have := c.atX
            rw [ht] at this
            exact absurd this column_nil
      · obtain ⟨x, y, z, c⟩ := columns_of hfine ht
        have ex : (stateOf pre).x = some x := col_iff.2 c.atX
        have ey : (stateOf pre).y = some y := col_iff.2 c.atY
        have ez : (stateOf pre).z = some z := col_iff.2 c.atZ
        have key : (Res.mapM' (devRow (stateOf pre)) (l :: ls) : Res (List (Pt D × List (Str × D)))) = .ub ↔
            FirstBad (fun l => ∃ r : Pt D × List (Str × D), GivesNamed (namesOf pre) x y z l r) (BadRow D (namesOf pre) x y z) (l :: ls) := by
          rw [Res.mapM'_ub]
          refine firstBad_congr (fun a _ => ?_) fun a _ => ?_
          · exact exists_congr fun r => row_read ex ey ez rfl c.xy c.xz c.yz a r
          · exact (row_cases ex ey ez c.xy c.xz c.yz a).1
        constructor
        · intro e
          rcases Res.bind_ub.1 e with e | ⟨rs, e1, e⟩
          · exact .inr (.inr ⟨x, y, z, c, key.1 e⟩)
          · rcases Res.bind_ub.1 e with e | ⟨_, _, e⟩
            · have hl := ((mapM'_forall (fun l r => row_read (h := stateOf pre) ex ey ez rfl c.xy c.xz c.yz l r)).1 e1).length_eq
              have := (chain_cases _).1.1 e
              simp only [List.length_cons] at hl
              omega
            · cases e
        · rintro (h | ⟨h, _⟩ | ⟨x', y', z', c', h⟩)
          · cases h
          · exact absurd h ht
          · rw [← column_unique c.atX c'.atX, ← column_unique c.atY c'.atY, ← column_unique c.atZ c'.atZ] at h
            rw [key.2 h]
            rfl
  constructor
  · intro e
    rcases heading_cases f with ⟨pre, rows, hh, e4⟩ | ⟨hb, e4⟩ | e4
    · exact .inr ⟨pre, rows, hh, (table hh).1 e⟩
    · exact .inl hb
    · rw [load_eq, e4] at e; cases e
  · rintro (h | ⟨pre, rows, hh, h⟩)
    · rw [load_eq, bad_read h]; rfl
    · exact (table hh).2 h

/-- Loading a survey always ends. -/
theorem dev_ends (f : File) : (loadDev f : Res (Well D)) ≠ .diverge := by
  rw [load_eq]
  intro e
  rcases heading_cases f with ⟨pre, rows, hh, e4⟩ | ⟨hb, e4⟩ | e4
  · rw [e4, Res.ok_bind] at e
    dsimp only at e
    rcases Res.bind_diverge.1 e with e | ⟨_, _, e⟩
    · obtain ⟨_, _, _, _, hfine, _, _⟩ := hh
      refine Res.mapM'_ends (fun l => ?_) rows e
      by_cases ht : titlesOf pre = []
      · rw [row_untitled (by simp [stateOf, ht, colOf]) (by simp [stateOf, ht])]
        split <;> simp
      · obtain ⟨x, y, z, c⟩ := columns_of hfine ht
        exact (row_cases (col_iff.2 c.atX) (col_iff.2 c.atY) (col_iff.2 c.atZ) c.xy c.xz c.yz l).2
    · rcases Res.bind_diverge.1 e with e | ⟨_, _, e⟩
      · exact (chain_cases _).2 e
      · cases e
  · rw [e4] at e; cases e
  · rw [e4] at e; cases e

/-- The full statement: a survey that does not load is refused. -/
def Refused (D : Type) [Num D] : Prop := ∀ f : File, (¬ ∃ w : Well D, loadDev f = .ok w) → (loadDev f : Res (Well D)) = .throw

/-- **C170**: the surveys that do not load are refused, when the heading and the table are not bad ones. -/
theorem refused_partial (f : File) (hno : ¬ ∃ w : Well D, loadDev f = .ok w) (hh : ¬ BadHeading f)
    (ht : ∀ pre rows, Headed f pre rows → ¬ BadTable D pre rows) : (loadDev f : Res (Well D)) = .throw := by
  cases e : (loadDev f : Res (Well D)) with
  | ok w => exact absurd ⟨w, e⟩ hno
  | throw => rfl
  | ub =>
    rcases (dev_ub_iff f).1 e with h | ⟨pre, rows, h1, h2⟩
    · exact absurd h hh
    · exact absurd h2 (ht pre rows h1)
  | diverge => exact absurd e (dev_ends f)

/-- A file with given lines between the rules, and rows. -/
def file (between rows : File) : File := [cs!"# WELL TRACE FROM PETREL", cs!"#===="] ++ between ++ [cs!"#===="] ++ rows

/-- **The full statement is false**: a survey with a heading and no row is not refused. -/
theorem refused_fails : ¬ Refused Int := by
  intro h
  have e : (loadDev (file [cs!"X Y Z"] []) : Res (Well Int)) = .ub :=
    (dev_ub_iff _).2 (.inr ⟨[cs!"#====", cs!"X Y Z"], [], ⟨_, _, rfl, by decide, ?_, by decide, by decide⟩, .inl rfl⟩)
  · have := h (file [cs!"X Y Z"] []) (by rintro ⟨w, h⟩; rw [e] at h; cases h)
    rw [e] at this
    cases this
  · refine ⟨by decide, ?_, ?_⟩
    · intro l hl
      simp only [List.mem_cons, List.not_mem_nil, or_false] at hl
      rcases hl with rfl | rfl <;> decide
    · rw [show titlesOf [cs!"#====", cs!"X Y Z"] = [] ++ [[cs!"X", cs!"Y", cs!"Z"]] from by decide]
      have hl : ∀ {t : Str} {i : Nat}, [cs!"X", cs!"Y", cs!"Z"][i]? = some t → (∀ j, i < j → j < 3 → [cs!"X", cs!"Y", cs!"Z"][j]? ≠ some t) →
          IsLast [cs!"X", cs!"Y", cs!"Z"] t i := by
        intro t i h1 h2
        refine ⟨h1, fun j hj hh => ?_⟩
        have : j < 3 := (List.getElem?_eq_some_iff.1 hh).1
        exact h2 j hj this hh
      refine agreed_concat.2 ⟨agreed_nil, by decide, 0, 1, 2, ?_⟩
      refine ⟨column_concat.2 (.inl (hl (by decide) ?_)), column_concat.2 (.inl (hl (by decide) ?_)), column_concat.2 (.inl (hl (by decide) ?_)), by decide, by decide, by decide⟩
      · intro j h1 h2
        have : j = 1 ∨ j = 2 := by omega
        rcases this with rfl | rfl <;> decide
      · intro j h1 h2
        have : j = 2 := by omega
        subst this; decide
      · intro j h1 h2; omega

/-! Tests on literals. -/

/-- Two lines of titles: the second one moves X, and a name between them is read. -/
example : (loadDev (file [cs!"X Y Z", cs!"# WELL NAME: W", cs!"MD A B X"] [cs!"1 2 3 4 5 6"]) : Res (Well Int)) =
    .ok { name := some cs!"W", points := [⟨4, 2, 3⟩], edges := [], vals := [[(cs!"MD", 1), (cs!"A", 5), (cs!"B", 6)]] } := by decide +kernel
/-- The second one gives X the column of Y. -/
example : (loadDev (file [cs!"X Y Z", cs!"MD X B"] [cs!"1 2 3 4 5"]) : Res (Well Int)) = .throw := by decide +kernel
example : (loadDev (file [cs!"X Y MD"] [cs!"1 2 3"]) : Res (Well Int)) = .ub := by decide +kernel
example : (loadDev (file [cs!"# WELL NAME:"] [cs!"1 2 3"]) : Res (Well Int)) = .ub := by decide +kernel
example : (loadDev (file [] [cs!"1 2 3"]) : Res (Well Int)) = .ub := by decide +kernel
example : (loadDev (file [] [cs!"1 2 3 4"]) : Res (Well Int)) = .throw := by decide +kernel
example : (loadDev (file [cs!"X Y Z X"] [cs!"1 2 3"]) : Res (Well Int)) = .ub := by decide +kernel
example : (loadDev (file [cs!"Y X Z Z"] [cs!"1 one 3"]) : Res (Well Int)) = .throw := by decide +kernel
/-- A row that is refused before one with undefined behaviour. -/
example : (loadDev (file [cs!"X Y Z X"] [cs!"1 2", cs!"1 2 3"]) : Res (Well Int)) = .throw := by decide +kernel

end Verif.Props.DevRefused
