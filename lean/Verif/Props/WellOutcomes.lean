import Verif.Props.Wells
import Mathlib.Data.List.Forall2

/-!
# C154: which deviation surveys load

`Props.Wells` shows what a survey gives when each of the titles X, Y and Z is there once.  Here the titles and the rows are any: the surveys that load are
found, with what they give, and what happens to the others.  Theorems about `Model.Wells`.
-/

namespace Verif.Props.WellOutcomes

open Verif Verif.Gocad Verif.GocadMesh Verif.Wells Verif.Props.Wells Res

variable {D : Type} [Num D]

/-- A text before the table as in `GoodText`, with any titles. -/
structure Shape (t : DevText) : Prop where
  first : startsWith t.first cs!"# WELL TRACE FROM PETREL" = true
  free : ∀ l ∈ t.free, startsWith l cs!"#===" = false ∧ (startsWith l cs!"# WELL NAME:" = true → 4 ≤ (split l).length)
  rule1 : startsWith t.rule1 cs!"#===" = true
  titles : startsWith t.titles cs!"#===" = false ∧ startsWith t.titles cs!"# WELL NAME:" = false
  rule2 : startsWith t.rule2 cs!"#===" = true

theorem shape_of_good {t : DevText} (g : GoodText t) : Shape t := ⟨g.first, g.free, g.rule1, g.titles, g.rule2⟩

/-- The well is named by the fourth word of the last line that announces a name. -/
def nameOf (free : File) : Str := ((free.filter fun l => startsWith l cs!"# WELL NAME:").getLast?.map fun l => (split l).getD 3 []).getD []

/-- The last column with a title. -/
def IsLast (T : List Str) (t : Str) (i : Nat) : Prop := T[i]? = some t ∧ ∀ j, i < j → T[j]? ≠ some t

theorem IsLast.unique {T : List Str} {t : Str} {i j : Nat} (hi : IsLast T t i) (hj : IsLast T t j) : i = j := by
  rcases Nat.lt_trichotomy i j with h | h | h
  · exact absurd hj.1 (hi.2 j h)
  · exact h
  · exact absurd hi.1 (hj.2 i h)

/-- The titles that are not those of coordinates. -/
def otherTitles (T : List Str) : List Str := T.filter fun t => !coordTitles.contains t

/-- The values of a row without those of three columns. -/
def without (x y z : Nat) (vs : List D) : List D := (vs.zipIdx.filter fun e => !(e.2 == x || e.2 == y || e.2 == z)).map Prod.fst

/-! ## The heading -/

theorem header_free (free : File)
    (h : ∀ l ∈ free, startsWith l cs!"#===" = false ∧ (startsWith l cs!"# WELL NAME:" = true → 4 ≤ (split l).length)) (name : Str) (rest : File) :
    devHeaderLoop { name := name } true (free ++ rest) =
      devHeaderLoop { name := ((free.filter fun l => startsWith l cs!"# WELL NAME:").getLast?.map fun l => (split l).getD 3 []).getD name } true rest := by
  induction free generalizing name with
  | nil => rfl
  | cons l ls ih =>
    obtain ⟨h1, h2⟩ := h l (by simp)
    rw [List.cons_append, devHeaderLoop, if_neg (by rw [h1]; simp)]
    by_cases h3 : startsWith l cs!"# WELL NAME:" = true
    · have h4 := h2 h3
      rw [if_pos h3, Res.index_of_lt (by omega), Res.ok_bind, ih (fun l hl => h l (by simp [hl])), List.filter_cons, if_pos h3]
      congr 2
      cases hf : (ls.filter fun l => startsWith l cs!"# WELL NAME:").getLast? with
      | none =>
        rw [List.getLast?_eq_none_iff] at hf
        rw [hf]
        have h5 : 3 < (split l).length := by omega
        simp [h5]
      | some a =>
        have hne : ls.filter (fun l => startsWith l cs!"# WELL NAME:") ≠ [] := by
          intro h0; rw [h0] at hf; simp at hf
        rw [List.getLast?_cons, hf]
        rfl
    · rw [if_neg h3, if_pos rfl, ih (fun l hl => h l (by simp [hl])), List.filter_cons, if_neg h3]

/-- The position found for a title. -/
def found (p : Option Nat) (i : Nat) (T : List Str) (t : Str) : Option Nat :=
  match T with
  | [] => p
  | a :: as => found (if a = t then some i else p) (i + 1) as t

theorem titles_found (T : List Str) (h : DevHeader) (i : Nat) :
    devTitles h i T = { name := h.name, names := h.names ++ otherTitles T, x := found h.x i T cs!"X", y := found h.y i T cs!"Y", z := found h.z i T cs!"Z" } := by
  induction T generalizing h i with
  | nil => cases h; simp [devTitles, otherTitles, found]
  | cons t ts ih =>
    rw [devTitles]
    by_cases hx : t = cs!"X"
    · subst hx
      rw [if_pos rfl, ih]
      rfl
    · by_cases hy : t = cs!"Y"
      · subst hy
        rw [if_neg hx, if_pos rfl, ih]
        rfl
      · by_cases hz : t = cs!"Z"
        · subst hz
          rw [if_neg hx, if_neg hy, if_pos rfl, ih]
          rfl
        · rw [if_neg hx, if_neg hy, if_neg hz, ih]
          have : coordTitles.contains t = false := by simp [coordTitles, hx, hy, hz]
          simp only [found, if_neg hx, if_neg hy, if_neg hz, otherTitles, List.filter_cons, this, Bool.not_false, if_true, List.append_assoc]
          rfl

theorem found_spec (T : List Str) (t : Str) (p : Option Nat) (i k : Nat) :
    found p i T t = some k ↔ (∃ j, IsLast T t j ∧ k = i + j) ∨ (t ∉ T ∧ p = some k) := by
  induction T generalizing p i with
  | nil => simp [found, IsLast]
  | cons a as ih =>
    rw [found, ih]
    constructor
    · rintro (⟨j, hj, rfl⟩ | ⟨h1, h2⟩)
      · refine Or.inl ⟨j + 1, ⟨by simpa using hj.1, fun m hm => ?_⟩, by omega⟩
        cases m with
        | zero => omega
        | succ m => simpa using hj.2 m (by omega)
      · by_cases e : a = t
        · rw [if_pos e] at h2
          refine Or.inl ⟨0, ⟨by simp [e], fun m hm => ?_⟩, ?_⟩
          · cases m with
            | zero => omega
            | succ m =>
              intro h3
              exact h1 (List.mem_of_getElem? (by simpa using h3))
          · have := Option.some.inj h2; omega
        · rw [if_neg e] at h2
          exact Or.inr ⟨by simp [h1, Ne.symm e], h2⟩
    · rintro (⟨j, hj, rfl⟩ | ⟨h1, h2⟩)
      · cases j with
        | zero =>
          have e : a = t := by simpa using hj.1
          refine Or.inr ⟨fun hm => ?_, by rw [if_pos e]; simp⟩
          obtain ⟨m, hm⟩ := List.getElem?_of_mem hm
          exact hj.2 (m + 1) (by omega) (by simpa using hm)
        | succ j =>
          refine Or.inl ⟨j, ⟨by simpa using hj.1, fun m hm => ?_⟩, by omega⟩
          simpa using hj.2 (m + 1) (by omega)
      · rw [List.mem_cons, not_or] at h1
        exact Or.inr ⟨h1.2, by rw [if_neg (Ne.symm h1.1)]; exact h2⟩

theorem found_none (T : List Str) (t : Str) (i : Nat) : found none i T t = none ↔ t ∉ T := by
  constructor
  · intro h hm
    obtain ⟨k, hk⟩ : ∃ k, found none i T t = some k := by
      clear h
      suffices ∀ p : Option Nat, ∃ k, found p i T t = some k from this none
      induction T generalizing i with
      | nil => cases hm
      | cons a as ih =>
        intro p
        rw [found]
        by_cases hm' : t ∈ as
        · exact ih _ hm' _
        · rcases List.mem_cons.1 hm with e | e
          · exact ⟨i, (found_spec as t _ _ _).2 (Or.inr ⟨hm', by rw [if_pos e.symm]⟩)⟩
          · exact absurd e hm'
    rw [h] at hk
    cases hk
  · intro h
    cases hf : found none i T t with
    | none => rfl
    | some k =>
      rcases (found_spec T t none i k).1 hf with ⟨j, hj, _⟩ | ⟨_, h2⟩
      · exact absurd (List.mem_of_getElem? hj.1) h
      · cases h2

theorem found_last {T : List Str} {t : Str} {k : Nat} : found none 0 T t = some k ↔ IsLast T t k := by
  rw [found_spec]
  constructor
  · rintro (⟨j, hj, rfl⟩ | ⟨_, h⟩)
    · rwa [Nat.zero_add]
    · cases h
  · exact fun h => Or.inl ⟨k, h, by omega⟩

/-- Every title has a last column. -/
theorem last_of_mem {T : List Str} {t : Str} (h : t ∈ T) : ∃ i, IsLast T t i := by
  cases hf : found none 0 T t with
  | none => exact absurd h ((found_none T t 0).1 hf)
  | some k => exact ⟨k, found_last.1 hf⟩

/-- The heading with the titles `T`. -/
def heading (free : File) (T : List Str) : DevHeader :=
  { name := nameOf free, names := otherTitles T, x := found none 0 T cs!"X", y := found none 0 T cs!"Y", z := found none 0 T cs!"Z" }

theorem titles_heading (free : File) (T : List Str) : devTitles { name := nameOf free } 0 T = heading free T := titles_found T _ 0

theorem check_heading {free : File} {T : List Str} :
    devCheck (heading free T) = if cs!"X" ∈ T ∧ cs!"Y" ∈ T ∧ cs!"Z" ∈ T then .ok () else .ub := by
  unfold devCheck heading
  cases hx : found none 0 T cs!"X" with
  | none => rw [if_neg (fun h => (found_none T _ 0).1 hx h.1)]; rfl
  | some x =>
    cases hy : found none 0 T cs!"Y" with
    | none => rw [if_neg (fun h => (found_none T _ 0).1 hy h.2.1)]; rfl
    | some y =>
      have lx := found_last.1 hx
      have ly := found_last.1 hy
      have hxy : x ≠ y := by
        rintro rfl
        have := lx.1.symm.trans ly.1
        revert this; decide
      cases hz : found none 0 T cs!"Z" with
      | none =>
        rw [if_neg (fun h => (found_none T _ 0).1 hz h.2.2)]
        simp only [initialised, Res.ok_bind, if_neg hxy]
        rfl
      | some z =>
        have lz := found_last.1 hz
        have hxz : x ≠ z := by
          rintro rfl
          have := lx.1.symm.trans lz.1
          revert this; decide
        have hyz : y ≠ z := by
          rintro rfl
          have := ly.1.symm.trans lz.1
          revert this; decide
        rw [if_pos ⟨List.mem_of_getElem? lx.1, List.mem_of_getElem? ly.1, List.mem_of_getElem? lz.1⟩]
        simp only [initialised, Res.ok_bind, if_neg hxy, bne_iff_ne.2 hxz, bne_iff_ne.2 hyz, Bool.and_self, Res.check_true]

theorem header_eq {t : DevText} (g : Shape t) (rows : File) :
    devHeader (t.lines ++ rows) =
      if (split t.titles).length < 3 then .throw
      else if cs!"X" ∈ split t.titles ∧ cs!"Y" ∈ split t.titles ∧ cs!"Z" ∈ split t.titles then .ok (heading t.free (split t.titles), rows) else .ub := by
  have e : t.lines ++ rows = t.first :: (t.free ++ t.rule1 :: t.titles :: t.rule2 :: rows) := by simp [DevText.lines]
  rw [e]
  unfold devHeader
  rw [checkKeyword, if_pos g.first, Res.ok_bind]
  have hf : devHeaderLoop {} true (t.free ++ t.rule1 :: t.titles :: t.rule2 :: rows) =
      devHeaderLoop { name := nameOf t.free } true (t.rule1 :: t.titles :: t.rule2 :: rows) := header_free t.free g.free [] _
  rw [hf, devHeaderLoop, if_pos g.rule1, if_pos rfl, devHeaderLoop, if_neg (by rw [g.titles.1]; simp), if_neg (by rw [g.titles.2]; simp), if_neg (by simp)]
  by_cases h3 : (split t.titles).length < 3
  · have : decide (3 ≤ (split t.titles).length) = false := decide_eq_false (by omega)
    rw [if_pos h3, this, Res.check_false]
    rfl
  · have : decide (3 ≤ (split t.titles).length) = true := decide_eq_true (by omega)
    simp only [if_neg h3, this, Res.check_true, Res.ok_bind, titles_heading, check_heading]
    by_cases hc : cs!"X" ∈ split t.titles ∧ cs!"Y" ∈ split t.titles ∧ cs!"Z" ∈ split t.titles
    · rw [if_pos hc, if_pos hc, Res.ok_bind, devHeaderLoop, if_pos g.rule2, if_neg (by simp)]
    · rw [if_neg hc, if_neg hc]
      rfl

/-! ## The rows -/

/-- A row gives a point and values: it has one number for each title that is not a coordinate and three more, and the columns of the coordinates are among
them. -/
def GivesNamed (names : List Str) (x y z : Nat) (l : Str) (r : Pt D × List (Str × D)) : Prop :=
  ∃ vs : List D, IsRow l vs ∧ vs.length = names.length + 3 ∧
    ∃ a b c, vs[x]? = some a ∧ vs[y]? = some b ∧ vs[z]? = some c ∧ r = (⟨a, b, c⟩, names.zip (without x y z vs))

/-- The same, with the other titles of a line of titles. -/
def Gives (T : List Str) (x y z : Nat) (l : Str) (r : Pt D × List (Str × D)) : Prop := GivesNamed (otherTitles T) x y z l r

/-- The attributes of a row. -/
theorem attrs_eq {h : DevHeader} {x y z : Nat} (hx : h.x = some x) (hy : h.y = some y) (hz : h.z = some z) (i : Nat) (attrs row : List Str)
    (r : List (Str × D)) (hlen : ((row.zipIdx i).filter fun e => !(e.2 == x || e.2 == y || e.2 == z)).length = attrs.length) :
    devAttrs h i attrs row = .ok r ↔
      ∃ vs, List.Forall₂ (fun e d => Num.parse e = some d) (((row.zipIdx i).filter fun e => !(e.2 == x || e.2 == y || e.2 == z)).map Prod.fst) vs ∧
        r = attrs.zip vs := by
  induction row generalizing i attrs r with
  | nil =>
    rw [devAttrs]
    constructor
    · intro h
      have := Res.ok.inj h
      subst this
      have : attrs = [] := by simpa using hlen.symm
      subst this
      exact ⟨[], .nil, rfl⟩
    · rintro ⟨vs, h1, h2⟩
      have : attrs = [] := by simpa using hlen.symm
      subst this
      rw [h2]
      rfl
  | cons t ts ih =>
    rw [devAttrs.eq_def]
    dsimp only
    rw [List.zipIdx_cons] at hlen ⊢
    by_cases hc : h.x = some i ∨ h.y = some i ∨ h.z = some i
    · have hc' : (i == x || i == y || i == z) = true := by
        rw [hx, hy, hz] at hc
        simp only [Option.some.injEq] at hc
        simp only [Bool.or_eq_true, beq_iff_eq]
        omega
      rw [if_pos hc]
      rw [List.filter_cons, if_neg (by simp [hc'])] at hlen ⊢
      exact ih _ _ _ hlen
    · have hc' : (i == x || i == y || i == z) = false := by
        rw [hx, hy, hz] at hc
        simp only [Option.some.injEq] at hc
        rw [Bool.eq_false_iff]
        simp only [ne_eq, Bool.or_eq_true, beq_iff_eq]
        omega
      rw [if_neg hc]
      rw [List.filter_cons, if_pos (by simp [hc'])] at hlen ⊢
      cases attrs with
      | nil => simp at hlen
      | cons a as =>
        dsimp only
        have hl : ((ts.zipIdx (i + 1)).filter fun e => !(e.2 == x || e.2 == y || e.2 == z)).length = as.length := by simpa using hlen
        constructor
        · intro e
          obtain ⟨d, e1, e⟩ := Res.bind_eq_ok.1 e
          obtain ⟨r', e2, e⟩ := Res.bind_eq_ok.1 e
          obtain ⟨vs, h1, h2⟩ := (ih _ _ _ hl).1 e2
          have hd : Num.parse t = some d := by
            unfold readDouble at e1
            cases hp : (Num.parse t : Option D) with
            | none => rw [hp] at e1; cases e1
            | some d' => rw [hp] at e1; rw [Res.ok.inj e1]
          have e := Res.ok.inj e
          exact ⟨d :: vs, .cons hd h1, by rw [← e, h2]; rfl⟩
        · rintro ⟨vs, h1, h2⟩
          cases h1 with
          | @cons _ d _ vs h3 h4 =>
            have e2 := (ih _ _ (as.zip vs) hl).2 ⟨vs, h4, rfl⟩
            dsimp only at h3
            rw [readDouble, h3, Res.ofParse_some, Res.ok_bind, e2, Res.ok_bind, h2]
            rfl

/-- What is left when three columns are taken. -/
theorem length_without {α : Type} {x y z : Nat} (hxy : x ≠ y) (hxz : x ≠ z) (hyz : y ≠ z) (i : Nat) (l : List α) :
    ((l.zipIdx i).filter fun e => !(e.2 == x || e.2 == y || e.2 == z)).length + (if i ≤ x ∧ x < i + l.length then 1 else 0)
      + (if i ≤ y ∧ y < i + l.length then 1 else 0) + (if i ≤ z ∧ z < i + l.length then 1 else 0) = l.length := by
  induction l generalizing i with
  | nil =>
    rw [List.length_nil, if_neg (by omega), if_neg (by omega), if_neg (by omega)]
    rfl
  | cons a as ih =>
    have := ih (i + 1)
    rw [List.zipIdx_cons, List.filter_cons]
    by_cases hc : (i == x || i == y || i == z) = true
    · rw [if_neg (by simp [hc])]
      simp only [Bool.or_eq_true, beq_iff_eq] at hc
      simp only [List.length_cons]
      split at this <;> split at this <;> split at this <;> split <;> split <;> split <;> omega
    · rw [if_pos (by simp [Bool.eq_false_iff.2 hc])]
      simp only [Bool.or_eq_true, beq_iff_eq] at hc
      simp only [List.length_cons]
      split at this <;> split at this <;> split at this <;> split <;> split <;> split <;> omega

theorem filter_forall₂ {α β : Type} {R : α → β → Prop} (p : Nat → Bool) {l : List α} {m : List β} (h : List.Forall₂ R l m) (i : Nat) :
    List.Forall₂ R (((l.zipIdx i).filter fun e => p e.2).map Prod.fst) (((m.zipIdx i).filter fun e => p e.2).map Prod.fst) := by
  induction h generalizing i with
  | nil => exact .nil
  | cons h1 _ ih =>
    simp only [List.zipIdx_cons, List.filter_cons]
    by_cases hp : p i = true
    · rw [if_pos hp, if_pos hp]; exact .cons h1 (ih _)
    · rw [if_neg hp, if_neg hp]; exact ih _

theorem parse_unique {row : List Str} {vs ws : List D} (h : List.Forall₂ (fun t d => Num.parse t = some d) row vs)
    (h' : List.Forall₂ (fun t d => Num.parse t = some d) row ws) : vs = ws := by
  induction h generalizing ws with
  | nil => cases h'; rfl
  | cons h1 _ ih =>
    cases h' with
    | cons h2 h3 => rw [Option.some.inj (h1.symm.trans h2), ih h3]

theorem parse_all {row : List Str} (h : ∀ t ∈ row, ∃ d : D, Num.parse t = some d) : ∃ vs : List D, List.Forall₂ (fun t d => Num.parse t = some d) row vs := by
  induction row with
  | nil => exact ⟨[], .nil⟩
  | cons t ts ih =>
    obtain ⟨d, hd⟩ := h t (by simp)
    obtain ⟨vs, hvs⟩ := ih fun t ht => h t (by simp [ht])
    exact ⟨d :: vs, .cons hd hvs⟩

theorem readDouble_ok {t : Str} {d : D} : readDouble t = .ok d ↔ Num.parse t = some d := by
  unfold readDouble
  cases hp : (Num.parse t : Option D) with
  | none => simp [Res.ofParse]
  | some d' => simp

/-- The rows read when the columns of the coordinates are different. -/
theorem row_read {h : DevHeader} {names : List Str} {x y z : Nat} (ex : h.x = some x) (ey : h.y = some y) (ez : h.z = some z) (en : h.names = names)
    (hxy : x ≠ y) (hxz : x ≠ z) (hyz : y ≠ z) (l : Str) (r : Pt D × List (Str × D)) : devRow h l = .ok r ↔ GivesNamed names x y z l r := by
  have hcount : ∀ row : List Str, x < row.length → y < row.length → z < row.length → row.length = names.length + 3 →
      ((row.zipIdx 0).filter fun e => !(e.2 == x || e.2 == y || e.2 == z)).length = names.length := by
    intro row h1 h2 h3 h4
    have := length_without hxy hxz hyz 0 row
    rw [if_pos (by omega), if_pos (by omega), if_pos (by omega)] at this
    omega
  unfold devRow devPoint
  simp only [ex, ey, ez, en, initialised, Res.ok_bind]
  constructor
  · intro e
    obtain ⟨_, e1, e⟩ := Res.bind_eq_ok.1 e
    have hlen : (split l).length = names.length + 3 := by
      by_contra hne
      rw [beq_eq_false_iff_ne.2 hne] at e1
      cases e1
    obtain ⟨p, e2, e⟩ := Res.bind_eq_ok.1 e
    obtain ⟨at_, e3, e⟩ := Res.bind_eq_ok.1 e
    obtain ⟨ta, i1, e2⟩ := Res.bind_eq_ok.1 e2
    obtain ⟨a, p1, e2⟩ := Res.bind_eq_ok.1 e2
    obtain ⟨tb, i2, e2⟩ := Res.bind_eq_ok.1 e2
    obtain ⟨b, p2, e2⟩ := Res.bind_eq_ok.1 e2
    obtain ⟨tc, i3, e2⟩ := Res.bind_eq_ok.1 e2
    obtain ⟨c, p3, e2⟩ := Res.bind_eq_ok.1 e2
    have i1 := Res.index_eq_ok.1 i1
    have i2 := Res.index_eq_ok.1 i2
    have i3 := Res.index_eq_ok.1 i3
    have l1 := (List.getElem?_eq_some_iff.1 i1).1
    have l2 := (List.getElem?_eq_some_iff.1 i2).1
    have l3 := (List.getElem?_eq_some_iff.1 i3).1
    have p1 := readDouble_ok.1 p1
    have p2 := readDouble_ok.1 p2
    have p3 := readDouble_ok.1 p3
    obtain ⟨ws, hws, e4⟩ := (attrs_eq ex ey ez 0 _ _ _ (hcount _ l1 l2 l3 hlen)).1 e3
    have hall : ∀ t ∈ split l, ∃ d : D, Num.parse t = some d := by
      intro t ht
      obtain ⟨i, hi⟩ := List.getElem?_of_mem ht
      by_cases hc : i = x ∨ i = y ∨ i = z
      · rcases hc with rfl | rfl | rfl
        · rw [hi] at i1; rw [Option.some.inj i1]; exact ⟨a, p1⟩
        · rw [hi] at i2; rw [Option.some.inj i2]; exact ⟨b, p2⟩
        · rw [hi] at i3; rw [Option.some.inj i3]; exact ⟨c, p3⟩
      · have hm : t ∈ (((split l).zipIdx 0).filter fun e => !(e.2 == x || e.2 == y || e.2 == z)).map Prod.fst := by
          refine List.mem_map.2 ⟨(t, i), List.mem_filter.2 ⟨?_, ?_⟩, rfl⟩
          · exact List.mem_zipIdx_iff_getElem?.2 hi
          · simp only [Bool.not_eq_true', Bool.or_eq_false_iff, beq_eq_false_iff_ne]
            omega
        obtain ⟨k, hk⟩ := List.getElem?_of_mem hm
        have hk' := (List.getElem?_eq_some_iff.1 hk)
        have hkw : k < ws.length := by rw [← hws.length_eq]; exact hk'.1
        have := (List.forall₂_iff_get.1 hws).2 k hk'.1 hkw
        exact ⟨_, by rw [← hk'.2]; exact this⟩
    obtain ⟨vs, hvs⟩ := parse_all hall
    have hat : ∀ {i : Nat} {t : Str} {d : D}, (split l)[i]? = some t → Num.parse t = some d → vs[i]? = some d := by
      intro i t d h1 h2
      have h3 := List.getElem?_eq_some_iff.1 h1
      have h4 : i < vs.length := by rw [← hvs.length_eq]; exact h3.1
      have h5 := (List.forall₂_iff_get.1 hvs).2 i h3.1 h4
      rw [List.getElem?_eq_some_iff]
      refine ⟨h4, ?_⟩
      have h6 : Num.parse ((split l)[i]'h3.1) = some (vs[i]'h4) := h5
      rw [h3.2, h2] at h6
      exact (Option.some.inj h6).symm
    refine ⟨vs, hvs, by rw [← hvs.length_eq]; exact hlen, a, b, c, hat i1 p1, hat i2 p2, hat i3 p3, ?_⟩
    have hu : ws = without x y z vs := parse_unique hws (filter_forall₂ (fun i => !(i == x || i == y || i == z)) hvs 0)
    rw [← Res.ok.inj e, ← Res.ok.inj e2, e4, hu]
  · rintro ⟨vs, hvs, hlen, a, b, c, ha, hb, hc, rfl⟩
    have hl : (split l).length = names.length + 3 := by rw [← hlen]; exact hvs.length_eq
    have hat : ∀ {i : Nat} {d : D}, vs[i]? = some d → ∃ t, Res.index (split l) i = .ok t ∧ readDouble t = .ok d := by
      intro i d h1
      have h3 := List.getElem?_eq_some_iff.1 h1
      have h4 : i < (split l).length := by rw [hvs.length_eq]; exact h3.1
      have h5 : Num.parse ((split l)[i]'h4) = some (vs[i]'h3.1) := (List.forall₂_iff_get.1 hvs).2 i h4 h3.1
      exact ⟨_, Res.index_of_lt h4, by rw [readDouble_ok, h5, h3.2]⟩
    obtain ⟨ta, i1, p1⟩ := hat ha
    obtain ⟨tb, i2, p2⟩ := hat hb
    obtain ⟨tc, i3, p3⟩ := hat hc
    have l1 := (List.getElem?_eq_some_iff.1 (Res.index_eq_ok.1 i1)).1
    have l2 := (List.getElem?_eq_some_iff.1 (Res.index_eq_ok.1 i2)).1
    have l3 := (List.getElem?_eq_some_iff.1 (Res.index_eq_ok.1 i3)).1
    have e3 := (attrs_eq ex ey ez 0 _ _ (names.zip (without x y z vs)) (hcount _ l1 l2 l3 hl)).2
      ⟨_, filter_forall₂ (fun i => !(i == x || i == y || i == z)) hvs 0, rfl⟩
    have hb' : ((split l).length == names.length + 3) = true := by rw [hl]; exact beq_self_eq_true _
    simp only [hb', Res.check_true, Res.ok_bind, i1, i2, i3, p1, p2, p3, Res.pure_eq, e3]

/-- The rows read under the titles. -/
theorem row_loaded {free : File} {T : List Str} {x y z : Nat} (hx : IsLast T cs!"X" x) (hy : IsLast T cs!"Y" y) (hz : IsLast T cs!"Z" z) (l : Str)
    (r : Pt D × List (Str × D)) : devRow (heading free T) l = .ok r ↔ Gives T x y z l r := by
  have ex : (heading free T).x = some x := found_last.2 hx
  have ey : (heading free T).y = some y := found_last.2 hy
  have ez : (heading free T).z = some z := found_last.2 hz
  have hxy : x ≠ y := by
    rintro rfl
    have := hx.1.symm.trans hy.1
    revert this; decide
  have hxz : x ≠ z := by
    rintro rfl
    have := hx.1.symm.trans hz.1
    revert this; decide
  have hyz : y ≠ z := by
    rintro rfl
    have := hy.1.symm.trans hz.1
    revert this; decide
  exact row_read ex ey ez rfl hxy hxz hyz l r

/-! ## The surveys that load -/

/-- The well given by the points and values of the rows. -/
def wellOf (name : Str) (rs : List (Pt D × List (Str × D))) : Well D :=
  { name := some name, points := rs.map Prod.fst, edges := polyline rs.length, vals := rs.map Prod.snd }

theorem mapM'_forall {α β : Type} {g : α → Res β} {R : α → β → Prop} (hg : ∀ a b, g a = .ok b ↔ R a b) {l : List α} {bs : List β} :
    Res.mapM' g l = .ok bs ↔ List.Forall₂ R l bs := by
  constructor
  · intro h
    induction l generalizing bs with
    | nil => rw [← Res.ok.inj h]; exact .nil
    | cons a as ih =>
      rw [Res.mapM'_cons] at h
      obtain ⟨b, e1, h⟩ := Res.bind_eq_ok.1 h
      obtain ⟨bs', e2, h⟩ := Res.bind_eq_ok.1 h
      rw [← Res.ok.inj h]
      exact .cons ((hg _ _).1 e1) (ih e2)
  · exact fun h => mapM'_forall₂ (fun a b h => (hg a b).2 h) h

/-- **C154, the surveys that load, whatever the titles.**  The titles X, Y and Z are there, there is a row, and each row has three numbers
more than there are other titles, the last columns titled X, Y and Z being among them.  The well has the points of these columns, and the values of the others are stored in order under the other titles. -/
theorem dev_loads_iff {t : DevText} (g : Shape t) (rows : File) (hW : rows.length ≤ W) (w : Well D) :
    loadDev (t.lines ++ rows) = .ok w ↔
      ∃ x y z, IsLast (split t.titles) cs!"X" x ∧ IsLast (split t.titles) cs!"Y" y ∧ IsLast (split t.titles) cs!"Z" z ∧ rows ≠ [] ∧
        ∃ rs, List.Forall₂ (Gives (split t.titles) x y z) rows rs ∧ w = wellOf (nameOf t.free) rs := by
  unfold loadDev
  rw [header_eq g]
  constructor
  · intro e
    by_cases h3 : (split t.titles).length < 3
    · rw [if_pos h3] at e; cases e
    · rw [if_neg h3] at e
      by_cases hc : cs!"X" ∈ split t.titles ∧ cs!"Y" ∈ split t.titles ∧ cs!"Z" ∈ split t.titles
      · rw [if_pos hc, Res.ok_bind] at e
        obtain ⟨x, hx⟩ := last_of_mem hc.1
        obtain ⟨y, hy⟩ := last_of_mem hc.2.1
        obtain ⟨z, hz⟩ := last_of_mem hc.2.2
        dsimp only at e
        obtain ⟨rs, e1, e⟩ := Res.bind_eq_ok.1 e
        obtain ⟨es, e2, e⟩ := Res.bind_eq_ok.1 e
        have h1 := (mapM'_forall (fun l r => row_loaded hx hy hz l r)).1 e1
        have hne : rows ≠ [] := by
          rintro rfl
          cases h1
          rw [List.length_nil, chainEdges_zero] at e2
          cases e2
        have hl := h1.length_eq
        rw [chainEdges_pos (by rw [← hl]; exact List.length_pos_iff.2 hne) (by omega)] at e2
        refine ⟨x, y, z, hx, hy, hz, hne, rs, h1, ?_⟩
        rw [← Res.ok.inj e, ← Res.ok.inj e2]
        rfl
      · rw [if_neg hc] at e; cases e
  · rintro ⟨x, y, z, hx, hy, hz, hne, rs, h1, rfl⟩
    have mx := List.mem_of_getElem? hx.1
    have my := List.mem_of_getElem? hy.1
    have mz := List.mem_of_getElem? hz.1
    have h3 : ¬ (split t.titles).length < 3 := by
      have lx := (List.getElem?_eq_some_iff.1 hx.1).1
      have ly := (List.getElem?_eq_some_iff.1 hy.1).1
      have lz := (List.getElem?_eq_some_iff.1 hz.1).1
      have hxy : x ≠ y := by
        rintro rfl
        have := hx.1.symm.trans hy.1
        revert this; decide
      have hxz : x ≠ z := by
        rintro rfl
        have := hx.1.symm.trans hz.1
        revert this; decide
      have hyz : y ≠ z := by
        rintro rfl
        have := hy.1.symm.trans hz.1
        revert this; decide
      omega
    have hl := h1.length_eq
    have e1 := (mapM'_forall (fun l r => row_loaded (free := t.free) hx hy hz l r)).2 h1
    rw [if_neg h3, if_pos ⟨mx, my, mz⟩, Res.ok_bind]
    dsimp only
    rw [e1, Res.ok_bind, chainEdges_pos (by rw [← hl]; exact List.length_pos_iff.2 hne) (by omega)]
    rfl

/-- Titles of less than three words are refused. -/
theorem dev_few_titles {t : DevText} (g : Shape t) (rows : File) (h : (split t.titles).length < 3) : (loadDev (t.lines ++ rows) : Res (Well D)) = .throw := by
  unfold loadDev
  rw [header_eq g, if_pos h]
  rfl

/-- Without one of the titles X, Y and Z, positions that were never assigned are compared: the full statement is false, these surveys are not refused. -/
theorem dev_titles_missing {t : DevText} (g : Shape t) (rows : File) (h : 3 ≤ (split t.titles).length)
    (hm : cs!"X" ∉ split t.titles ∨ cs!"Y" ∉ split t.titles ∨ cs!"Z" ∉ split t.titles) : (loadDev (t.lines ++ rows) : Res (Well D)) = .ub := by
  unfold loadDev
  rw [header_eq g, if_neg (by omega), if_neg (by rintro ⟨h1, h2, h3⟩; rcases hm with h | h | h <;> contradiction)]
  rfl

/-! ## Titles that are there once -/

theorem last_lt {T : List Str} {t : Str} {i : Nat} (h : IsLast T t i) : i < T.length := (List.getElem?_eq_some_iff.1 h.1).1

/-- **C154 for surveys with each of X, Y and Z once, and a row.**  The survey loads exactly when every row has one number for each title. -/
theorem dev_loads_partial {t : DevText} (g : GoodText t) {rows : File} (hne : rows ≠ []) (hW : rows.length ≤ W) :
    (∃ w : Well D, loadDev (t.lines ++ rows) = .ok w) ↔ ∀ l ∈ rows, ∃ vs : List D, IsRow l vs ∧ vs.length = (split t.titles).length := by
  obtain ⟨x, hx⟩ := last_of_mem (mem_of_count g.good.x)
  obtain ⟨y, hy⟩ := last_of_mem (mem_of_count g.good.y)
  obtain ⟨z, hz⟩ := last_of_mem (mem_of_count g.good.z)
  have hT : (otherTitles (split t.titles)).length + 3 = (split t.titles).length := count_others g.good
  constructor
  · rintro ⟨w, h⟩
    obtain ⟨x, y, z, _, _, _, _, rs, h1, _⟩ := (dev_loads_iff (shape_of_good g) rows hW w).1 h
    intro l hl
    obtain ⟨i, hi⟩ := List.getElem?_of_mem hl
    have hi := List.getElem?_eq_some_iff.1 hi
    obtain ⟨vs, hvs, hlen, _⟩ := (List.forall₂_iff_get.1 h1).2 i hi.1 (by rw [← h1.length_eq]; exact hi.1)
    refine ⟨vs, ?_, by rw [hlen, hT]⟩
    have e : rows.get ⟨i, hi.1⟩ = l := hi.2
    rwa [e] at hvs
  · intro h
    have hrow : ∀ l ∈ rows, ∃ r : Pt D × List (Str × D), Gives (split t.titles) x y z l r := by
      intro l hl
      obtain ⟨vs, hvs, hlen⟩ := h l hl
      have lx : x < vs.length := by rw [hlen]; exact last_lt hx
      have ly : y < vs.length := by rw [hlen]; exact last_lt hy
      have lz : z < vs.length := by rw [hlen]; exact last_lt hz
      exact ⟨_, vs, hvs, by rw [hlen, hT], vs[x], vs[y], vs[z], List.getElem?_eq_getElem lx, List.getElem?_eq_getElem ly, List.getElem?_eq_getElem lz, rfl⟩
    have hall : ∃ rs : List (Pt D × List (Str × D)), List.Forall₂ (Gives (split t.titles) x y z) rows rs := by
      clear hW h hne
      induction rows with
      | nil => exact ⟨[], .nil⟩
      | cons a as ih =>
        obtain ⟨r, hr⟩ := hrow a (by simp)
        obtain ⟨rs, hrs⟩ := ih fun l hl => hrow l (by simp [hl])
        exact ⟨r :: rs, .cons hr hrs⟩
    obtain ⟨rs, hrs⟩ := hall
    exact ⟨_, (dev_loads_iff (shape_of_good g) rows hW _).2 ⟨x, y, z, hx, hy, hz, hne, rs, hrs, rfl⟩⟩

theorem attrs_cases {h : DevHeader} {x y z : Nat} (hx : h.x = some x) (hy : h.y = some y) (hz : h.z = some z) (i : Nat) (attrs row : List Str)
    (hlen : ((row.zipIdx i).filter fun e => !(e.2 == x || e.2 == y || e.2 == z)).length = attrs.length) :
    (∃ r : List (Str × D), devAttrs h i attrs row = .ok r) ∨ (devAttrs h i attrs row : Res (List (Str × D))) = .throw := by
  induction row generalizing i attrs with
  | nil => exact Or.inl ⟨[], rfl⟩
  | cons t ts ih =>
    rw [devAttrs.eq_def]
    dsimp only
    rw [List.zipIdx_cons] at hlen
    by_cases hc : h.x = some i ∨ h.y = some i ∨ h.z = some i
    · have hc' : (i == x || i == y || i == z) = true := by
        rw [hx, hy, hz] at hc
        simp only [Option.some.injEq] at hc
        simp only [Bool.or_eq_true, beq_iff_eq]
        omega
      rw [if_pos hc]
      rw [List.filter_cons, if_neg (by simp [hc'])] at hlen
      exact ih _ _ hlen
    · have hc' : (i == x || i == y || i == z) = false := by
        rw [hx, hy, hz] at hc
        simp only [Option.some.injEq] at hc
        rw [Bool.eq_false_iff]
        simp only [ne_eq, Bool.or_eq_true, beq_iff_eq]
        omega
      rw [if_neg hc]
      rw [List.filter_cons, if_pos (by simp [hc'])] at hlen
      cases attrs with
      | nil => simp at hlen
      | cons a as =>
        dsimp only
        unfold readDouble
        cases hp : (Num.parse t : Option D) with
        | none => exact Or.inr rfl
        | some d =>
          rw [Res.ofParse_some, Res.ok_bind]
          rcases ih (i + 1) as (by simpa using hlen) with ⟨r, hr⟩ | hr
          · exact Or.inl ⟨(a, d) :: r, by rw [hr]; rfl⟩
          · exact Or.inr (by rw [hr]; rfl)

/-- The other surveys of this kind are refused. -/
theorem dev_refused_partial {t : DevText} (g : GoodText t) {rows : File} (hne : rows ≠ []) (hW : rows.length ≤ W)
    (h : ¬ ∀ l ∈ rows, ∃ vs : List D, IsRow l vs ∧ vs.length = (split t.titles).length) : (loadDev (t.lines ++ rows) : Res (Well D)) = .throw := by
  obtain ⟨x, hx⟩ := last_of_mem (mem_of_count g.good.x)
  obtain ⟨y, hy⟩ := last_of_mem (mem_of_count g.good.y)
  obtain ⟨z, hz⟩ := last_of_mem (mem_of_count g.good.z)
  have hT : (otherTitles (split t.titles)).length + 3 = (split t.titles).length := count_others g.good
  have ex : (heading t.free (split t.titles)).x = some x := found_last.2 hx
  have ey : (heading t.free (split t.titles)).y = some y := found_last.2 hy
  have ez : (heading t.free (split t.titles)).z = some z := found_last.2 hz
  have en : (heading t.free (split t.titles)).names = otherTitles (split t.titles) := rfl
  have hxy : x ≠ y := by
    rintro rfl
    have := hx.1.symm.trans hy.1
    revert this; decide
  have hxz : x ≠ z := by
    rintro rfl
    have := hx.1.symm.trans hz.1
    revert this; decide
  have hyz : y ≠ z := by
    rintro rfl
    have := hy.1.symm.trans hz.1
    revert this; decide
  have hrow : ∀ l, (∃ r : Pt D × List (Str × D), devRow (heading t.free (split t.titles)) l = .ok r) ∨
      (devRow (heading t.free (split t.titles)) l : Res (Pt D × List (Str × D))) = .throw := by
    intro l
    unfold devRow devPoint
    simp only [ex, ey, ez, en, initialised, Res.ok_bind]
    by_cases hl : (split l).length = (otherTitles (split t.titles)).length + 3
    · have hb : ((split l).length == (otherTitles (split t.titles)).length + 3) = true := by rw [hl]; exact beq_self_eq_true _
      have lx : x < (split l).length := by rw [hl, hT]; exact last_lt hx
      have ly : y < (split l).length := by rw [hl, hT]; exact last_lt hy
      have lz : z < (split l).length := by rw [hl, hT]; exact last_lt hz
      have hcnt : (((split l).zipIdx 0).filter fun e => !(e.2 == x || e.2 == y || e.2 == z)).length = (otherTitles (split t.titles)).length := by
        have := length_without hxy hxz hyz 0 (split l)
        rw [if_pos (by omega), if_pos (by omega), if_pos (by omega)] at this
        omega
      simp only [hb, Res.check_true, Res.ok_bind, Res.index_of_lt lx, Res.index_of_lt ly, Res.index_of_lt lz, readDouble]
      cases (Num.parse ((split l)[x]'lx) : Option D) with
      | none => exact Or.inr rfl
      | some a =>
        cases (Num.parse ((split l)[y]'ly) : Option D) with
        | none => exact Or.inr rfl
        | some b =>
          cases (Num.parse ((split l)[z]'lz) : Option D) with
          | none => exact Or.inr rfl
          | some c =>
            simp only [Res.ofParse_some, Res.ok_bind, Res.pure_eq]
            rcases attrs_cases (D := D) ex ey ez 0 (otherTitles (split t.titles)) (split l) hcnt with ⟨r, hr⟩ | hr
            · exact Or.inl ⟨_, by rw [hr]; rfl⟩
            · exact Or.inr (by rw [hr]; rfl)
    · rw [beq_eq_false_iff_ne.2 hl]
      exact Or.inr rfl
  have hno : ¬ ∃ w : Well D, loadDev (t.lines ++ rows) = .ok w := fun hw => h ((dev_loads_partial g hne hW).1 hw)
  have hmap : (∃ rs : List (Pt D × List (Str × D)), Res.mapM' (devRow (heading t.free (split t.titles))) rows = .ok rs) ∨
      (Res.mapM' (devRow (heading t.free (split t.titles))) rows : Res (List (Pt D × List (Str × D)))) = .throw := by
    clear hno h hW hne
    induction rows with
    | nil => exact Or.inl ⟨[], rfl⟩
    | cons a as ih =>
      rw [Res.mapM'_cons]
      rcases hrow a with ⟨r, hr⟩ | hr
      · rw [hr, Res.ok_bind]
        rcases ih with ⟨rs, hrs⟩ | hrs
        · exact Or.inl ⟨_, by rw [hrs]; rfl⟩
        · exact Or.inr (by rw [hrs]; rfl)
      · exact Or.inr (by rw [hr]; rfl)
  have h3 : ¬ (split t.titles).length < 3 := by omega
  have hload : (loadDev (t.lines ++ rows) : Res (Well D)) = (Res.mapM' (devRow (heading t.free (split t.titles))) rows >>= fun rs =>
      chainEdges rs.length >>= fun es => .ok { name := some (nameOf t.free), points := rs.map Prod.fst, edges := es, vals := rs.map Prod.snd }) := by
    unfold loadDev
    rw [header_eq (shape_of_good g), if_neg h3, if_pos ⟨mem_of_count g.good.x, mem_of_count g.good.y, mem_of_count g.good.z⟩]
    rfl
  rcases hmap with ⟨rs, hrs⟩ | hrs
  · exfalso
    apply hno
    have h1 := (mapM'_forall (fun l r => row_loaded hx hy hz l r)).1 hrs
    exact ⟨_, (dev_loads_iff (shape_of_good g) rows hW _).2 ⟨x, y, z, hx, hy, hz, hne, rs, h1, rfl⟩⟩
  · rw [hload, hrs]
    rfl

/-! ## Titles that are repeated -/

/-- With a title twice, the rows that load have less values than there are titles: none loads when the last of the two is far on the right. -/
theorem dev_title_beyond {t : DevText} (g : Shape t) {rows : File} (hW : rows.length ≤ W) {i : Nat} {a : Str} (ha : a ∈ coordTitles)
    (hi : IsLast (split t.titles) a i) (hb : (otherTitles (split t.titles)).length + 3 ≤ i) (w : Well D) : loadDev (t.lines ++ rows) ≠ .ok w := by
  intro h
  obtain ⟨x, y, z, hx, hy, hz, hne, rs, h1, _⟩ := (dev_loads_iff g rows hW w).1 h
  cases rows with
  | nil => exact hne rfl
  | cons r rs' =>
    cases h1 with
    | cons h2 _ =>
      obtain ⟨vs, _, hlen, p, q, s, h3, h4, h5, _⟩ := h2
      have l3 := (List.getElem?_eq_some_iff.1 h3).1
      have l4 := (List.getElem?_eq_some_iff.1 h4).1
      have l5 := (List.getElem?_eq_some_iff.1 h5).1
      simp only [coordTitles, List.mem_cons, List.not_mem_nil, or_false] at ha
      rcases ha with rfl | rfl | rfl
      · have := hi.unique hx; omega
      · have := hi.unique hy; omega
      · have := hi.unique hz; omega

/-- A text with given titles. -/
def text (titles : Str) : DevText := { survey with titles := titles }

theorem shape_text {titles : Str} (h : startsWith titles cs!"#===" = false ∧ startsWith titles cs!"# WELL NAME:" = false) : Shape (text titles) := by
  refine ⟨(by decide : startsWith survey.first _ = true), ?_, (by decide : startsWith survey.rule1 _ = true), h,
    (by decide : startsWith survey.rule2 _ = true)⟩
  intro l hl
  simp only [text, survey, List.mem_cons, List.not_mem_nil, or_false] at hl
  rcases hl with rfl | rfl <;> decide

/-- The full statement is false: with the title X twice, a row of as many numbers as titles is refused, and rows of one number less are read, the column
titled MD being left out and the first column stored under its title. -/
theorem dev_title_repeated :
    (loadDev ((text cs!"X X Y Z MD").lines ++ [cs!"1 2 3 4 5"]) : Res (Well Int)) = .throw ∧
    (loadDev ((text cs!"X X Y Z MD").lines ++ [cs!"1 2 3 4"]) : Res (Well Int)) =
      .ok { name := some cs!"P1", points := [⟨2, 3, 4⟩], edges := [], vals := [[(cs!"MD", 1)]] } := by
  constructor <;> decide +kernel

/-- With the title X twice around the others, the rows of three numbers are read out of their bounds. -/
theorem dev_title_repeated_ub : (loadDev ((text cs!"X Y Z X").lines ++ [cs!"1 2 3"]) : Res (Well Int)) = .ub := by decide +kernel

/-! Examples. -/

example : Shape (text cs!"X X Y Z MD") := shape_text (by decide)
example : IsLast (split cs!"X Y Z X") cs!"X" 3 := ⟨by decide, fun j hj h => by
  have : j < 4 := (List.getElem?_eq_some_iff.1 h).1
  omega⟩
example : nameOf survey.free = cs!"P1" := by decide +kernel
example : nameOf [cs!"# WELL NAME: A", cs!"# other", cs!"# WELL NAME: B"] = cs!"B" := by decide +kernel
example : without 0 2 3 ([1, 2, 3, 4, 5] : List Int) = [2, 5] := by decide +kernel
/-- Titles missing. -/
example : (loadDev ((text cs!"X Y MD").lines ++ [cs!"1 2 3"]) : Res (Well Int)) = .ub := dev_titles_missing (shape_text (by decide)) _ (by decide) (by decide)

end Verif.Props.WellOutcomes
