import Verif.Model.Wells
import Verif.Props.GocadBody
import Mathlib.Data.List.Forall2

/-!
# C18, C19 and C20: wells
-/

set_option linter.unusedSectionVars false

namespace Verif.Props.Wells

open Verif Verif.Gocad Verif.GocadMesh Verif.Wells

variable {D : Type} [Num D]

/-- The edges of a polyline through `n` vertices. -/
def polyline (n : Nat) : List Edge := (List.range (n - 1)).map fun i => (i, i + 1)

theorem chainEdges_pos {n : Nat} (h : 0 < n) (hW : n ≤ W) : chainEdges n = .ok (polyline n) := by
  unfold chainEdges polyline
  have e : sub32 n 1 = n - 1 := by unfold sub32; unfold W at *; omega
  rw [e]
  apply Res.mapM'_ok
  intro i hi
  rw [List.mem_range] at hi
  rw [if_pos (by omega)]

theorem chainEdges_zero : chainEdges 0 = .ub := by
  have key : ∀ n, Res.mapM' (fun i => if i + 1 < 0 then .ok (i, i + 1) else (.ub : Res Edge)) (List.range (n + 1)) = .ub := by
    intro n
    rw [List.range_succ_eq_map, Res.mapM'_cons, if_neg (by omega)]
    exact Res.ub_bind _
  have e : ∃ n, sub32 0 1 = n + 1 := ⟨4294967294, by decide⟩
  obtain ⟨n, hn⟩ := e
  unfold chainEdges
  rw [hn]
  exact key n

/-! ## C18: point lists -/

/-- The line holds exactly the three coordinates of the point. -/
def IsPoint (l : Str) (p : Pt D) : Prop :=
  ∃ a b c, split l = [a, b, c] ∧ Num.parse a = some p.x ∧ Num.parse b = some p.y ∧ Num.parse c = some p.z

theorem readCoord3_ok {l : Str} {p : Pt D} : readCoord3 l = .ok p ↔ IsPoint l p := by
  unfold readCoord3 IsPoint
  constructor
  · intro h
    match hs : split l with
    | [a, b, c] =>
      rw [hs] at h
      simp only [List.length_cons, List.length_nil, Nat.zero_add, Nat.reduceAdd, beq_self_eq_true, Res.check_true, Res.ok_bind,
        Res.index_cons_zero, Res.index_cons_succ] at h
      refine ⟨a, b, c, rfl, ?_⟩
      unfold readDouble at h
      cases h1 : (Num.parse a : Option D) <;> cases h2 : (Num.parse b : Option D) <;> cases h3 : (Num.parse c : Option D) <;>
        simp only [h1, h2, h3, Res.ofParse_none, Res.ofParse_some, Res.ok_bind, Res.throw_bind, reduceCtorEq, Res.pure_eq, Res.ok.injEq] at h
      subst h
      simp
    | [] => rw [hs] at h; simp at h
    | [_] => rw [hs] at h; simp at h
    | [_, _] => rw [hs] at h; simp at h
    | _ :: _ :: _ :: _ :: _ => rw [hs] at h; simp at h
  · rintro ⟨a, b, c, hs, h1, h2, h3⟩
    simp [hs, readDouble, h1, h2, h3]

theorem readCoord3_else {l : Str} (h : ¬ ∃ p : Pt D, IsPoint l p) : (readCoord3 l : Res (Pt D)) = .throw := by
  cases hr : (readCoord3 l : Res (Pt D)) with
  | ok p => exact absurd ⟨p, readCoord3_ok.1 hr⟩ h
  | throw => rfl
  | ub =>
    exfalso
    revert hr
    unfold readCoord3
    match split l with
    | [a, b, c] =>
      unfold readDouble
      simp only [List.length_cons, List.length_nil, Nat.zero_add, Nat.reduceAdd, beq_self_eq_true, Res.check_true, Res.ok_bind,
        Res.index_cons_zero, Res.index_cons_succ]
      cases (Num.parse a : Option D) <;> cases (Num.parse b : Option D) <;> cases (Num.parse c : Option D) <;> simp
    | [] => simp
    | [_] => simp
    | [_, _] => simp
    | _ :: _ :: _ :: _ :: _ => simp
  | diverge =>
    exfalso
    revert hr
    unfold readCoord3
    match split l with
    | [a, b, c] =>
      unfold readDouble
      simp only [List.length_cons, List.length_nil, Nat.zero_add, Nat.reduceAdd, beq_self_eq_true, Res.check_true, Res.ok_bind,
        Res.index_cons_zero, Res.index_cons_succ]
      cases (Num.parse a : Option D) <;> cases (Num.parse b : Option D) <;> cases (Num.parse c : Option D) <;> simp
    | [] => simp
    | [_] => simp
    | [_, _] => simp
    | _ :: _ :: _ :: _ :: _ => simp

theorem mapM'_forall₂ {α β : Type} {g : α → Res β} {R : α → β → Prop} (hg : ∀ a b, R a b → g a = .ok b) {l : List α} {bs : List β}
    (h : List.Forall₂ R l bs) : Res.mapM' g l = .ok bs := by
  induction h with
  | nil => rfl
  | cons h1 _ ih => rw [Res.mapM'_cons, hg _ _ h1, Res.ok_bind, ih]; rfl

theorem mapM'_throw {α β : Type} {g : α → Res β} {l : List α} (hg : ∀ a ∈ l, (∃ b, g a = .ok b) ∨ g a = .throw)
    {a : α} (ha : a ∈ l) (h : g a = .throw) : Res.mapM' g l = .throw := by
  induction l with
  | nil => simp at ha
  | cons x xs ih =>
    rw [Res.mapM'_cons]
    rcases hg x (by simp) with ⟨b, hb⟩ | hb
    · rw [hb, Res.ok_bind]
      rcases List.mem_cons.1 ha with rfl | ha
      · rw [h] at hb; exact absurd hb (by simp)
      · rw [ih (fun a ha => hg a (by simp [ha])) ha]; rfl
    · rw [hb]; rfl

/-- **C18 for files with at least one line: what is loaded.**  A file whose lines are the coordinates of the points `ps` loads as the
polyline through `ps`. -/
theorem list_loaded_partial {f : File} {ps : List (Pt D)} (hne : f ≠ []) (hW : f.length ≤ W) (h : List.Forall₂ IsPoint f ps) :
    loadList f = .ok { points := ps, edges := polyline ps.length } := by
  unfold loadList
  rw [mapM'_forall₂ (fun a b hab => readCoord3_ok.2 hab) h, Res.ok_bind, chainEdges_pos]
  · rfl
  · rw [← h.length_eq]; exact List.length_pos_iff.2 hne
  · rw [← h.length_eq]; exact hW

/-- **C18: what is refused.**  A line that is not made of exactly three numbers raises an exception, wherever it is in the file. -/
theorem list_refused {f : File} {l : Str} (hl : l ∈ f) (h : ¬ ∃ p : Pt D, IsPoint l p) : (loadList f : Res (Well D)) = .throw := by
  unfold loadList
  rw [mapM'_throw (a := l) ?_ hl (readCoord3_else h)]
  · rfl
  · intro a _
    by_cases hp : ∃ p : Pt D, IsPoint a p
    · obtain ⟨p, hp⟩ := hp
      exact Or.inl ⟨p, readCoord3_ok.2 hp⟩
    · exact Or.inr (readCoord3_else hp)

/-- In particular a line with a number of tokens other than three. -/
theorem list_wrong_count {f : File} {l : Str} (hl : l ∈ f) (h : (split l).length ≠ 3) : (loadList f : Res (Well D)) = .throw :=
  list_refused hl (by rintro ⟨p, a, b, c, hs, _⟩; rw [hs] at h; exact h rfl)

/-- The two theorems cover every file with a line. -/
theorem list_cover (f : File) : (∃ ps : List (Pt D), List.Forall₂ IsPoint f ps) ∨ ∃ l ∈ f, ¬ ∃ p : Pt D, IsPoint l p := by
  induction f with
  | nil => exact Or.inl ⟨[], List.Forall₂.nil⟩
  | cons l ls ih =>
    by_cases h : ∃ p : Pt D, IsPoint l p
    · obtain ⟨p, hp⟩ := h
      rcases ih with ⟨ps, h⟩ | ⟨x, hx, h⟩
      · exact Or.inl ⟨p :: ps, List.Forall₂.cons hp h⟩
      · exact Or.inr ⟨x, by simp [hx], h⟩
    · exact Or.inr ⟨l, by simp, h⟩

/-- **C18 fails for the empty file.**  The number of edges wraps to 2^32 - 1 and the first one joins vertices that do not exist. -/
theorem list_empty : (loadList [] : Res (Well D)) = .ub := by
  unfold loadList
  rw [Res.mapM'_nil, Res.ok_bind, List.length_nil, chainEdges_zero]
  exact Res.ub_bind _

example : (loadList [cs!"1 2 3", cs!"  4 5  6\r", cs!"7 8 9"] : Res (Well Int)) =
    .ok { points := [⟨1, 2, 3⟩, ⟨4, 5, 6⟩, ⟨7, 8, 9⟩], edges := [(0, 1), (1, 2)] } := by decide +kernel

example : List.Forall₂ (IsPoint (D := Int)) [cs!"1 2 3", cs!"4 5 6"] [⟨1, 2, 3⟩, ⟨4, 5, 6⟩] :=
  .cons ⟨cs!"1", cs!"2", cs!"3", by decide, by decide, by decide, by decide⟩
    (.cons ⟨cs!"4", cs!"5", cs!"6", by decide, by decide, by decide, by decide⟩ .nil)

/-- A blank line is refused too. -/
example : (loadList [cs!"1 2 3", cs!"", cs!"7 8 9"] : Res (Well Int)) = .throw := by decide +kernel

/-! ## C19: Petrel deviation surveys -/

/-- Titles of the coordinate columns. -/
def coordTitles : List Str := [cs!"X", cs!"Y", cs!"Z"]

/-- A table header: the three coordinate titles appear once each. -/
structure GoodTitles (T : List Str) : Prop where
  x : T.count cs!"X" = 1
  y : T.count cs!"Y" = 1
  z : T.count cs!"Z" = 1

/-- Column of a title. -/
def col (T : List Str) (t : Str) : Nat := T.idxOf t

theorem devTitles_names (T : List Str) (h : DevHeader) (i : Nat) :
    (devTitles h i T).names = h.names ++ T.filter (fun t => !coordTitles.contains t) ∧ (devTitles h i T).name = h.name := by
  induction T generalizing h i with
  | nil => simp [devTitles]
  | cons t ts ih =>
    rw [devTitles]
    by_cases hx : t = cs!"X"
    · subst hx; rw [if_pos rfl, (ih _ _).1, (ih _ _).2]; exact ⟨rfl, rfl⟩
    · by_cases hy : t = cs!"Y"
      · subst hy; rw [if_neg hx, if_pos rfl, (ih _ _).1, (ih _ _).2]; exact ⟨rfl, rfl⟩
      · by_cases hz : t = cs!"Z"
        · subst hz; rw [if_neg hx, if_neg hy, if_pos rfl, (ih _ _).1, (ih _ _).2]; exact ⟨rfl, rfl⟩
        · rw [if_neg hx, if_neg hy, if_neg hz, (ih _ _).1, (ih _ _).2]
          have : coordTitles.contains t = false := by simp [coordTitles, hx, hy, hz]
          refine ⟨?_, rfl⟩
          rw [List.filter_cons, if_pos (by rw [this]; rfl)]
          exact List.append_assoc _ _ _

theorem devTitles_x (T : List Str) (h : DevHeader) (i : Nat) (hx : T.count cs!"X" ≤ 1) :
    (devTitles h i T).x = if cs!"X" ∈ T then some (i + T.idxOf cs!"X") else h.x := by
  induction T generalizing h i with
  | nil => simp [devTitles]
  | cons t ts ih =>
    rw [devTitles]
    by_cases h1 : t = cs!"X"
    · subst h1
      have hn : cs!"X" ∉ ts := by
        rw [List.count_cons_self] at hx
        exact List.count_eq_zero.1 (by omega)
      rw [if_pos rfl, ih _ _ (by rw [List.count_eq_zero.2 hn]; omega), if_neg hn]
      simp
    · have hc : ts.count cs!"X" ≤ 1 := by rw [List.count_cons_of_ne h1] at hx; exact hx
      have hm : cs!"X" ∈ t :: ts ↔ cs!"X" ∈ ts := by
        rw [List.mem_cons]; exact ⟨fun h => h.resolve_left (fun e => h1 e.symm), Or.inr⟩
      have hidx : i + (t :: ts).idxOf cs!"X" = i + 1 + ts.idxOf cs!"X" := by
        rw [List.idxOf_cons_ne _ h1]; omega
      rw [if_neg h1, hidx]
      simp only [hm]
      split
      · rw [ih _ _ hc]
      · split
        · rw [ih _ _ hc]
        · rw [ih _ _ hc]

theorem devTitles_y (T : List Str) (h : DevHeader) (i : Nat) (hx : T.count cs!"Y" ≤ 1) :
    (devTitles h i T).y = if cs!"Y" ∈ T then some (i + T.idxOf cs!"Y") else h.y := by
  induction T generalizing h i with
  | nil => simp [devTitles]
  | cons t ts ih =>
    rw [devTitles]
    by_cases h1 : t = cs!"Y"
    · subst h1
      have hn : cs!"Y" ∉ ts := by
        rw [List.count_cons_self] at hx
        exact List.count_eq_zero.1 (by omega)
      rw [if_neg (by decide), if_pos rfl, ih _ _ (by rw [List.count_eq_zero.2 hn]; omega), if_neg hn]
      simp
    · have hc : ts.count cs!"Y" ≤ 1 := by rw [List.count_cons_of_ne h1] at hx; exact hx
      have hm : cs!"Y" ∈ t :: ts ↔ cs!"Y" ∈ ts := by
        rw [List.mem_cons]; exact ⟨fun h => h.resolve_left (fun e => h1 e.symm), Or.inr⟩
      have hidx : i + (t :: ts).idxOf cs!"Y" = i + 1 + ts.idxOf cs!"Y" := by
        rw [List.idxOf_cons_ne _ h1]; omega
      rw [if_neg h1, hidx]
      simp only [hm]
      split
      · rw [ih _ _ hc]
      · split
        · rw [ih _ _ hc]
        · rw [ih _ _ hc]

theorem devTitles_z (T : List Str) (h : DevHeader) (i : Nat) (hx : T.count cs!"Z" ≤ 1) :
    (devTitles h i T).z = if cs!"Z" ∈ T then some (i + T.idxOf cs!"Z") else h.z := by
  induction T generalizing h i with
  | nil => simp [devTitles]
  | cons t ts ih =>
    rw [devTitles]
    by_cases h1 : t = cs!"Z"
    · subst h1
      have hn : cs!"Z" ∉ ts := by
        rw [List.count_cons_self] at hx
        exact List.count_eq_zero.1 (by omega)
      rw [if_neg (by decide), if_neg (by decide), if_pos rfl, ih _ _ (by rw [List.count_eq_zero.2 hn]; omega), if_neg hn]
      simp
    · have hc : ts.count cs!"Z" ≤ 1 := by rw [List.count_cons_of_ne h1] at hx; exact hx
      have hm : cs!"Z" ∈ t :: ts ↔ cs!"Z" ∈ ts := by
        rw [List.mem_cons]; exact ⟨fun h => h.resolve_left (fun e => h1 e.symm), Or.inr⟩
      have hidx : i + (t :: ts).idxOf cs!"Z" = i + 1 + ts.idxOf cs!"Z" := by
        rw [List.idxOf_cons_ne _ h1]; omega
      rw [if_neg h1, hidx]
      simp only [hm]
      split
      · rw [ih _ _ hc]
      · split
        · rw [ih _ _ hc]
        · rw [ih _ _ hc]

theorem mem_of_count {T : List Str} {t : Str} (h : T.count t = 1) : t ∈ T := List.count_pos_iff.1 (by omega)

theorem count_others {T : List Str} (g : GoodTitles T) : (T.filter (fun t => !coordTitles.contains t)).length + 3 = T.length := by
  have key : ∀ T : List Str, (T.filter (fun t => !coordTitles.contains t)).length + T.count cs!"X" + T.count cs!"Y" + T.count cs!"Z" = T.length := by
    intro T
    induction T with
    | nil => rfl
    | cons t ts ih =>
      by_cases hx : t = cs!"X"
      · subst hx
        rw [List.count_cons_self, List.count_cons_of_ne (by decide), List.count_cons_of_ne (by decide), List.filter_cons, if_neg (by decide)]
        simp only [List.length_cons]; omega
      · by_cases hy : t = cs!"Y"
        · subst hy
          rw [List.count_cons_self, List.count_cons_of_ne (by decide), List.count_cons_of_ne (by decide), List.filter_cons, if_neg (by decide)]
          simp only [List.length_cons]; omega
        · by_cases hz : t = cs!"Z"
          · subst hz
            rw [List.count_cons_self, List.count_cons_of_ne (by decide), List.count_cons_of_ne (by decide), List.filter_cons, if_neg (by decide)]
            simp only [List.length_cons]; omega
          · have : coordTitles.contains t = false := by simp [coordTitles, hx, hy, hz]
            rw [List.count_cons_of_ne hx, List.count_cons_of_ne hy, List.count_cons_of_ne hz, List.filter_cons, if_pos (by rw [this]; rfl)]
            simp only [List.length_cons]; omega
  have := key T
  rw [g.x, g.y, g.z] at this
  omega


/-- The text before the table. -/
structure DevText where
  first : Str
  free : File
  rule1 : Str
  titles : Str
  rule2 : Str

/-- The lines of the text. -/
def DevText.lines (t : DevText) : File := [t.first] ++ t.free ++ [t.rule1, t.titles, t.rule2]

/-- A well formed text before the table: magic line, lines that are neither rules nor truncated name lines, two rules around the
titles. -/
structure GoodText (t : DevText) : Prop where
  first : startsWith t.first cs!"# WELL TRACE FROM PETREL" = true
  free : ∀ l ∈ t.free, startsWith l cs!"#===" = false ∧ (startsWith l cs!"# WELL NAME:" = true → 4 ≤ (split l).length)
  rule1 : startsWith t.rule1 cs!"#===" = true
  titles : startsWith t.titles cs!"#===" = false ∧ startsWith t.titles cs!"# WELL NAME:" = false
  rule2 : startsWith t.rule2 cs!"#===" = true
  good : GoodTitles (split t.titles)

/-- Header found for the titles `T`. -/
def headerOf (name : Str) (T : List Str) : DevHeader where
  name := name
  names := T.filter (fun t => !coordTitles.contains t)
  x := some (col T cs!"X")
  y := some (col T cs!"Y")
  z := some (col T cs!"Z")

theorem devTitles_good {T : List Str} (g : GoodTitles T) (name : Str) : devTitles { name := name } 0 T = headerOf name T := by
  have h1 := devTitles_names T { name := name } 0
  have h2 := devTitles_x T { name := name } 0 (by rw [g.x]; exact Nat.le_refl 1)
  have h3 := devTitles_y T { name := name } 0 (by rw [g.y]; exact Nat.le_refl 1)
  have h4 := devTitles_z T { name := name } 0 (by rw [g.z]; exact Nat.le_refl 1)
  rw [if_pos (mem_of_count g.x), Nat.zero_add] at h2
  rw [if_pos (mem_of_count g.y), Nat.zero_add] at h3
  rw [if_pos (mem_of_count g.z), Nat.zero_add] at h4
  cases e : devTitles { name := name } 0 T with
  | mk n ns x y z =>
    rw [e] at h1 h2 h3 h4
    simp only at h1 h2 h3 h4
    unfold headerOf col
    rw [h1.1, h1.2, h2, h3, h4]
    rfl

theorem col_lt {T : List Str} {t : Str} (h : T.count t = 1) : col T t < T.length := List.idxOf_lt_length_of_mem (mem_of_count h)

theorem col_get {T : List Str} {t : Str} (h : T.count t = 1) : T[col T t]? = some t := by
  rw [List.getElem?_eq_getElem (col_lt h)]
  simp [col]

theorem col_ne {T : List Str} {t u : Str} (ht : T.count t = 1) (hu : T.count u = 1) (h : t ≠ u) : col T t ≠ col T u := by
  intro e
  have h1 := col_get ht
  rw [e, col_get hu] at h1
  exact h (Option.some.inj h1).symm

theorem devCheck_good {T : List Str} (g : GoodTitles T) (name : Str) : devCheck (headerOf name T) = .ok () := by
  have h1 : col T cs!"X" ≠ col T cs!"Y" := col_ne g.x g.y (by decide)
  have h2 : col T cs!"X" ≠ col T cs!"Z" := col_ne g.x g.z (by decide)
  have h3 : col T cs!"Y" ≠ col T cs!"Z" := col_ne g.y g.z (by decide)
  have e : (col T cs!"X" != col T cs!"Z" && col T cs!"Y" != col T cs!"Z") = true := by
    rw [bne_iff_ne.2 h2, bne_iff_ne.2 h3]; rfl
  simp only [devCheck, headerOf, initialised, Res.ok_bind, if_neg h1, e, Res.check_true]

theorem devHeaderLoop_free (free : File)
    (h : ∀ l ∈ free, startsWith l cs!"#===" = false ∧ (startsWith l cs!"# WELL NAME:" = true → 4 ≤ (split l).length)) (name : Str) (rest : File) :
    ∃ name', devHeaderLoop { name := name } true (free ++ rest) = devHeaderLoop { name := name' } true rest := by
  induction free generalizing name with
  | nil => exact ⟨name, rfl⟩
  | cons l ls ih =>
    obtain ⟨h1, h2⟩ := h l (by simp)
    rw [List.cons_append, devHeaderLoop, if_neg (by rw [h1]; simp)]
    by_cases h3 : startsWith l cs!"# WELL NAME:" = true
    · have h4 := h2 h3
      rw [if_pos h3, Res.index_of_lt (by omega), Res.ok_bind]
      exact ih (fun l hl => h l (by simp [hl])) _
    · rw [if_neg h3, if_pos rfl]
      exact ih (fun l hl => h l (by simp [hl])) _

theorem devHeader_good {t : DevText} (g : GoodText t) (rows : File) :
    ∃ name, devHeader (t.lines ++ rows) = .ok (headerOf name (split t.titles), rows) := by
  obtain ⟨name, hn⟩ := devHeaderLoop_free t.free g.free [] (t.rule1 :: t.titles :: t.rule2 :: rows)
  refine ⟨name, ?_⟩
  have e : t.lines ++ rows = t.first :: (t.free ++ t.rule1 :: t.titles :: t.rule2 :: rows) := by simp [DevText.lines]
  have h3 : 3 ≤ (split t.titles).length := by have := count_others g.good; omega
  rw [e]
  unfold devHeader
  rw [checkKeyword, if_pos g.first, Res.ok_bind, hn, devHeaderLoop, if_pos g.rule1, if_pos rfl, devHeaderLoop,
    if_neg (by rw [g.titles.1]; simp), if_neg (by rw [g.titles.2]; simp), if_neg (by simp)]
  simp only [decide_eq_true h3, Res.check_true, Res.ok_bind, devTitles_good g.good, devCheck_good g.good]
  rw [devHeaderLoop, if_pos g.rule2, if_neg (by simp)]

/-- The values of a row, by column. -/
def IsRow (l : Str) (vs : List D) : Prop := List.Forall₂ (fun t d => Num.parse t = some d) (split l) vs

/-- The attribute values of a row: the values whose title is not a coordinate, with their titles. -/
def others (T : List Str) (vs : List D) : List (Str × D) := (T.zip vs).filter fun p => !coordTitles.contains p.1

theorem index_row {row : List Str} {vs : List D} (h : List.Forall₂ (fun t d => Num.parse t = some d) row vs) {i : Nat} (hi : i < row.length) :
    ∃ t, Res.index row i = .ok t ∧ ∃ hv : i < vs.length, Num.parse t = some vs[i] := by
  refine ⟨row[i], Res.index_of_lt hi, by rw [← h.length_eq]; exact hi, ?_⟩
  exact (List.forall₂_iff_get.1 h).2 i hi (by rw [← h.length_eq]; exact hi)

/-- Point of a row. -/
def pointAt (T : List Str) (vs : List D) : Pt D :=
  ⟨vs.getD (col T cs!"X") Num.zero, vs.getD (col T cs!"Y") Num.zero, vs.getD (col T cs!"Z") Num.zero⟩

theorem devPoint_good {T : List Str} (g : GoodTitles T) (name : Str) {row : List Str} {vs : List D}
    (h : List.Forall₂ (fun t d => Num.parse t = some d) row vs) (hl : row.length = T.length) :
    devPoint (headerOf name T) row = .ok (pointAt T vs) := by
  obtain ⟨t1, e1, h1, p1⟩ := index_row h (i := col T cs!"X") (by rw [hl]; exact col_lt g.x)
  obtain ⟨t2, e2, h2, p2⟩ := index_row h (i := col T cs!"Y") (by rw [hl]; exact col_lt g.y)
  obtain ⟨t3, e3, h3, p3⟩ := index_row h (i := col T cs!"Z") (by rw [hl]; exact col_lt g.z)
  unfold devPoint pointAt
  simp only [headerOf, initialised, Res.ok_bind, e1, e2, e3, readDouble, p1, p2, p3, Res.ofParse_some, Res.pure_eq]
  simp [h1, h2, h3]

theorem devAttrs_good (T : List Str) (name : Str) (g : GoodTitles T) (pre : List Str) {post : List Str} (hT : T = pre ++ post) {row : List Str}
    {vs : List D} (h : List.Forall₂ (fun t d => Num.parse t = some d) row vs) (hl : row.length = post.length) :
    devAttrs (headerOf name T) pre.length (post.filter fun t => !coordTitles.contains t) row = .ok (others post vs) := by
  induction post generalizing pre row vs with
  | nil =>
    have : row = [] := by simpa using hl
    subst this
    cases h
    rfl
  | cons t ts ih =>
    cases h with
    | nil => simp at hl
    | @cons r d row vs h1 h2 =>
      have hget : T[pre.length]? = some t := by rw [hT]; simp
      have hkey : (headerOf name T).x = some pre.length ∨ (headerOf name T).y = some pre.length ∨ (headerOf name T).z = some pre.length ↔
          coordTitles.contains t = true := by
        have iffcol : ∀ u, T.count u = 1 → (col T u = pre.length ↔ t = u) := by
          intro u hu
          constructor
          · intro e
            have := col_get hu
            rw [e, hget] at this
            exact Option.some.inj this
          · intro e
            subst e
            -- the only occurrence
            have hn : t ∉ pre := by
              intro hm
              rw [hT, List.count_append, List.count_cons_self] at hu
              have := List.count_pos_iff.2 hm
              omega
            unfold col
            rw [hT, List.idxOf_append, if_neg hn]
            simp
        simp only [headerOf, Option.some.injEq, iffcol _ g.x, iffcol _ g.y, iffcol _ g.z, coordTitles]
        simp
      have ih' := ih (pre ++ [t]) (by rw [hT]; simp) h2 (by simpa using hl)
      rw [List.length_append, List.length_singleton] at ih'
      rw [devAttrs.eq_def]
      dsimp only
      by_cases hc : coordTitles.contains t = true
      · rw [if_pos (hkey.2 hc), List.filter_cons, if_neg (by rw [hc]; decide), ih']
        simp only [others, List.zip_cons_cons, List.filter_cons]
        rw [if_neg (by rw [hc]; decide)]
      · have hc' : coordTitles.contains t = false := by simpa using hc
        rw [if_neg (fun h => hc (hkey.1 h)), List.filter_cons, if_pos (by simp only [hc', Bool.not_false])]
        simp only [readDouble, h1, Res.ofParse_some, Res.ok_bind, ih', Res.pure_eq]
        simp only [others, List.zip_cons_cons, List.filter_cons]
        rw [if_pos (by simp only [hc', Bool.not_false])]

theorem devRow_good {T : List Str} (g : GoodTitles T) (name : Str) {l : Str} {vs : List D} (h : IsRow l vs) (hl : vs.length = T.length) :
    devRow (headerOf name T) l = .ok (pointAt T vs, others T vs) := by
  have hlen : (split l).length = T.length := by rw [← hl]; exact h.length_eq
  have hc : ((split l).length == (headerOf name T).names.length + 3) = true := by
    rw [hlen]; simp only [headerOf]; rw [count_others g]; simp
  unfold devRow
  simp only [hc, Res.check_true, Res.ok_bind, devPoint_good g name h hlen]
  have := devAttrs_good T name g [] rfl h hlen
  rw [List.length_nil] at this
  have e : (headerOf name T).names = T.filter (fun t => !coordTitles.contains t) := rfl
  rw [e, this]
  rfl

/-- **C19 for surveys with at least one row.**  A survey with the columns `T` in any order loads with one vertex per row, at the coordinates in the columns titled X, Y
and Z, and the values of the row are stored under the titles of their columns. -/
theorem dev_loaded_partial {t : DevText} (g : GoodText t) {rows : File} {vss : List (List D)} (hne : rows ≠ []) (hW : rows.length ≤ W)
    (h : List.Forall₂ IsRow rows vss) (hlen : ∀ vs ∈ vss, vs.length = (split t.titles).length) :
    ∃ name, loadDev (t.lines ++ rows) =
      .ok { name := some name, points := vss.map (pointAt (split t.titles)), edges := polyline rows.length,
            vals := vss.map (others (split t.titles)) } := by
  obtain ⟨name, hh⟩ := devHeader_good g rows
  refine ⟨name, ?_⟩
  have hrows : Res.mapM' (devRow (headerOf name (split t.titles))) rows =
      .ok (vss.map fun vs => (pointAt (split t.titles) vs, others (split t.titles) vs)) := by
    clear hh hne hW
    induction h with
    | nil => rfl
    | cons h1 _ ih =>
      rw [Res.mapM'_cons, devRow_good g.good name h1 (hlen _ (by simp)), Res.ok_bind, ih (fun vs hvs => hlen vs (by simp [hvs]))]
      rfl
  have hl := h.length_eq
  unfold loadDev
  rw [hh, Res.ok_bind]
  simp only
  rw [hrows, Res.ok_bind, List.length_map, chainEdges_pos (by rw [← hl]; exact List.length_pos_iff.2 hne) (by omega), ← hl]
  simp [List.map_map, Function.comp_def, headerOf]

theorem find_last_unique {α β : Type} [DecidableEq α] {l : List (α × β)} {a : α} {b : β} (h : (a, b) ∈ l) (hn : (l.map Prod.fst).Nodup) :
    (l.reverse.find? fun p => p.1 = a) = some (a, b) := by
  have hm : (a, b) ∈ l.reverse := by simpa using h
  cases hf : l.reverse.find? (fun p => decide (p.1 = a)) with
  | none =>
    rw [List.find?_eq_none] at hf
    exact absurd (hf _ hm) (by simp)
  | some p =>
    have h1 := List.mem_of_find?_eq_some hf
    have h2 := List.find?_some hf
    simp only [decide_eq_true_eq] at h2
    have h1' : p ∈ l := by simpa using h1
    congr 1
    obtain ⟨p1, p2⟩ := p
    simp only at h2
    subst h2
    obtain ⟨i, hi, e1⟩ := List.getElem_of_mem h1'
    obtain ⟨j, hj, e2⟩ := List.getElem_of_mem h
    have : i = j := (List.getElem_inj (xs := l.map Prod.fst) (h₀ := by simpa using hi) (h₁ := by simpa using hj) hn).1 (by simp [e1, e2])
    subst this
    rw [e1] at e2
    exact e2

/-- **C19, reading the attributes.**  When the other titles are distinct, the attribute named like a column has at each vertex the
value of the row in that column, whatever the order of the columns. -/
theorem dev_attribute_partial {t : DevText} (g : GoodText t) {rows : File} {vss : List (List D)} (hne : rows ≠ []) (hW : rows.length ≤ W)
    (h : List.Forall₂ IsRow rows vss) (hlen : ∀ vs ∈ vss, vs.length = (split t.titles).length) (hd : (split t.titles).Nodup) {w : Well D}
    (hw : loadDev (t.lines ++ rows) = .ok w) {v c : Nat} {vs : List D} {title : Str} {d : D} (hv : vss[v]? = some vs)
    (ht : (split t.titles)[c]? = some title) (hnot : title ∉ coordTitles) (hval : vs[c]? = some d) : w.attr title v = d := by
  obtain ⟨name, hl⟩ := dev_loaded_partial g hne hW h hlen
  rw [hl] at hw
  cases hw
  have hvl : v < vss.length := (List.getElem?_eq_some_iff.1 hv).1
  have hmem : (title, d) ∈ others (split t.titles) vs := by
    unfold others
    rw [List.mem_filter]
    have hcc : coordTitles.contains title = false := by
      cases e : coordTitles.contains title
      · rfl
      · exact absurd (List.contains_iff_mem.1 e) hnot
    refine ⟨?_, by dsimp only; rw [hcc]; rfl⟩
    rw [List.mem_iff_getElem?]
    refine ⟨c, ?_⟩
    rw [List.getElem?_zip_eq_some]
    exact ⟨ht, hval⟩
  have hnd : ((others (split t.titles) vs).map Prod.fst).Nodup := by
    unfold others
    refine List.Nodup.sublist (List.Sublist.map _ List.filter_sublist) ?_
    rw [List.map_fst_zip (Nat.le_of_eq (hlen vs (List.mem_of_getElem? hv)).symm)]
    exact hd
  unfold Well.attr
  have e : (List.map (others (split t.titles)) vss).getD v [] = others (split t.titles) vs := by
    rw [List.getD_eq_getElem?_getD, List.getElem?_map, hv]
    rfl
  rw [e, find_last_unique hmem hnd]
  rfl

/-- A row with a wrong number of values raises an exception (the rows before it being well formed). -/
theorem dev_wrong_row {t : DevText} (g : GoodText t) {rows rest : File} {bad : Str} {vss : List (List D)} (h : List.Forall₂ IsRow rows vss)
    (hlen : ∀ vs ∈ vss, vs.length = (split t.titles).length) (hbad : (split bad).length ≠ (split t.titles).length) :
    (loadDev (t.lines ++ (rows ++ bad :: rest)) : Res (Well D)) = .throw := by
  obtain ⟨name, hh⟩ := devHeader_good g (rows ++ bad :: rest)
  have hb : (devRow (headerOf name (split t.titles)) bad : Res (Pt D × List (Str × D))) = .throw := by
    have hc : ((split bad).length == (headerOf name (split t.titles)).names.length + 3) = false := by
      simp only [headerOf]; rw [count_others g.good]; simpa using hbad
    unfold devRow
    simp only [hc, Res.check_false, Res.throw_bind]
  have hm : (Res.mapM' (devRow (headerOf name (split t.titles))) (rows ++ bad :: rest) : Res (List (Pt D × List (Str × D)))) = .throw := by
    clear hh
    induction h with
    | nil => rw [List.nil_append, Res.mapM'_cons, hb]; rfl
    | cons h1 _ ih =>
      rw [List.cons_append, Res.mapM'_cons, devRow_good g.good name h1 (hlen _ (by simp)), Res.ok_bind, ih (fun vs hvs => hlen vs (by simp [hvs]))]
      rfl
  unfold loadDev
  rw [hh, Res.ok_bind]
  simp only
  rw [hm]
  rfl

/-- A survey of two rows with the columns in an unusual order. -/
def survey : DevText where
  first := cs!"# WELL TRACE FROM PETREL"
  free := [cs!"# WELL NAME:              P1", cs!"# anything"]
  rule1 := cs!"#======="
  titles := cs!" MD Z TVD X Y"
  rule2 := cs!"#======="

example : GoodText survey := by
  refine ⟨by decide, ?_, by decide, by decide, by decide, ⟨by decide, by decide, by decide⟩⟩
  intro l hl
  simp only [survey, List.mem_cons, List.not_mem_nil, or_false] at hl
  rcases hl with rfl | rfl <;> decide

example : (loadDev (survey.lines ++ [cs!" 10 1 11 2 3", cs!" 20 4 22 5 6"]) : Res (Well Int)) =
    .ok { name := some cs!"P1", points := [⟨2, 3, 1⟩, ⟨5, 6, 4⟩], edges := [(0, 1)],
          vals := [[(cs!"MD", 10), (cs!"TVD", 11)], [(cs!"MD", 20), (cs!"TVD", 22)]] } := by decide +kernel

/-- A survey without a line of `=` is refused. -/
theorem dev_no_titles {first : Str} {free : File} (h1 : startsWith first cs!"# WELL TRACE FROM PETREL" = true)
    (h : ∀ l ∈ free, startsWith l cs!"#===" = false ∧ (startsWith l cs!"# WELL NAME:" = true → 4 ≤ (split l).length)) :
    (loadDev (first :: free) : Res (Well D)) = .throw := by
  obtain ⟨name, hn⟩ := devHeaderLoop_free free h [] []
  rw [List.append_nil] at hn
  have : devHeader (first :: free) = .throw := by
    unfold devHeader
    rw [checkKeyword, if_pos h1, Res.ok_bind, hn]
    rfl
  unfold loadDev
  rw [this]
  rfl

example : (loadDev [cs!"# WELL TRACE FROM PETREL", cs!"# WELL NAME: P1", cs!"X Y Z", cs!"1 2 3"] : Res (Well Int)) = .throw := by decide +kernel

/-- Without a column titled Y the reader compares positions that were never assigned. -/
theorem dev_missing_title : (loadDev [cs!"# WELL TRACE FROM PETREL", cs!"#===", cs!"X Z MD", cs!"#===", cs!"1 2 3"] : Res (Well Int)) = .ub := by
  decide +kernel

/-- A survey without rows is undefined behaviour, as an empty point list. -/
theorem dev_no_rows {t : DevText} (g : GoodText t) : (loadDev t.lines : Res (Well D)) = .ub := by
  obtain ⟨name, hh⟩ := devHeader_good g []
  rw [List.append_nil] at hh
  unfold loadDev
  rw [hh, Res.ok_bind]
  dsimp only
  rw [Res.mapM'_nil, Res.ok_bind, List.length_nil, chainEdges_zero]
  exact Res.ub_bind _

/-! ## C20: GOCAD wells -/

/-- A path record: measured depth (not used), depth, and the offsets from the well head. -/
structure Path (D : Type) where
  line : Str
  md : Str
  tvd : D
  dx : D
  dy : D

/-- The line of the record reads as the record. -/
def Path.Good (p : Path D) : Prop :=
  startsWith p.line cs!"PATH" = true ∧ ∃ kw a b c, split p.line = [kw, p.md, a, b, c] ∧ Num.parse a = some p.tvd ∧ Num.parse b = some p.dx ∧
    Num.parse c = some p.dy

/-- Point of a record. -/
def Path.point [Add D] (z : Bool) (ref : Pt D) (p : Path D) : Pt D := ⟨p.dx + ref.x, p.dy + ref.y, signed z p.tvd⟩

theorem wlCoord_path {p : Path D} (h : p.Good) : wlCoord p.line 2 = .ok ⟨p.tvd, p.dx, p.dy⟩ := by
  obtain ⟨_, kw, a, b, c, hs, h1, h2, h3⟩ := h
  unfold wlCoord
  rw [hs]
  simp [readDouble, h1, h2, h3]

theorem wlPaths_good [Add D] (z : Bool) (ref : Pt D) (paths : List (Path D)) (h : ∀ p ∈ paths, p.Good) (ps : List (Pt D)) (rest : File)
    (hr : ∀ l ∈ rest.head?, startsWith l cs!"PATH" = false) :
    wlPaths z ref ps (paths.map Path.line ++ rest) = .ok (ps ++ paths.map (Path.point z ref)) := by
  induction paths generalizing ps with
  | nil =>
    cases rest with
    | nil => simp [wlPaths]
    | cons l ls =>
      have := hr l (by simp)
      simp [wlPaths, this]
  | cons p paths ih =>
    have hp := h p (by simp)
    rw [List.map_cons, List.cons_append, wlPaths, if_pos hp.1, wlCoord_path hp, Res.ok_bind]
    rw [ih (fun p hp => h p (by simp [hp]))]
    simp [Path.point, List.append_assoc]

/-- Text of a well with the records `paths`, `WREF` line `ref`, and anything that does not start with `PATH` around the records. -/
def fileWL (name : Option Str) (z : Bool) (wref : Str) (between : File) (paths : List (Path D)) (rest : File) : File :=
  [cs!"GOCAD Well 1"] ++ writeHeader name ++ writeCrs { zPos := z } ++ [wref] ++ between ++ paths.map Path.line ++ rest

/-- **C20, what is loaded.**  The polyline starts at the well reference and goes through the path records in order, except the first
one, which is skipped. -/
theorem wl_loaded [Add D] {name : Option Str} (hname : ∀ n, name = some n → GoodObjectName n) (z : Bool) {wref kw a b c : Str} {r : Pt D}
    (hw : startsWith wref cs!"WREF" = true) (hs : split wref = [kw, a, b, c]) (h1 : Num.parse a = some r.x) (h2 : Num.parse b = some r.y)
    (h3 : Num.parse c = some r.z) (between : File) (hb : ∀ l ∈ between, startsWith l cs!"PATH" = false) (p0 : Path D) (hp0 : p0.Good)
    (paths : List (Path D)) (hp : ∀ p ∈ paths, p.Good) (rest : File) (hr : ∀ l ∈ rest.head?, startsWith l cs!"PATH" = false) :
    let ref : Pt D := ⟨r.x, r.y, signed z r.z⟩
    loadWl (fileWL name z wref between (p0 :: paths) rest) =
      .ok { name := name, points := ref :: paths.map (Path.point z ref), edges := polyline (paths.length + 1) } := by
  intro ref
  have e : fileWL name z wref between (p0 :: paths) rest = cs!"GOCAD Well 1" :: (writeHeader name ++ (writeCrs { zPos := z } ++
      (wref :: (between ++ p0.line :: (paths.map Path.line ++ rest))))) := by simp [fileWL]
  have hcrs : ∀ rest : File, readCrs (writeCrs { zPos := z } ++ rest) = .ok ({ zPos := z }, rest) := fun rest =>
    readCrs_writeCrs (Verif.Props.GocadBody.goodCrs_z z) rest
  rw [e]
  unfold loadWl
  rw [gotoKeyword?, if_pos (by rfl)]
  simp only
  rw [readHeader_good hname, Res.ok_bind]
  simp only
  rw [hcrs, Res.ok_bind]
  simp only
  rw [gotoKeyword_here hw, Res.ok_bind]
  simp only
  have hc : (wlCoord wref 1 : Res (Pt D)) = .ok r := by
    unfold wlCoord
    rw [hs]
    simp [readDouble, h1, h2, h3]
  rw [hc, Res.ok_bind, gotoKeyword_skip hb, gotoKeyword_here hp0.1, Res.ok_bind]
  simp only
  rw [wlPaths_good z ref paths hp [ref] rest hr]
  simp [polyline, ref]

/-- **C20 when the first record is the well head itself**: then the skipped record adds nothing, and the polyline goes through every
record. -/
theorem wl_all_records_partial [Add D] {name : Option Str} (hname : ∀ n, name = some n → GoodObjectName n) (z : Bool) {wref kw a b c : Str} {r : Pt D}
    (hw : startsWith wref cs!"WREF" = true) (hs : split wref = [kw, a, b, c]) (h1 : Num.parse a = some r.x) (h2 : Num.parse b = some r.y)
    (h3 : Num.parse c = some r.z) (between : File) (hb : ∀ l ∈ between, startsWith l cs!"PATH" = false) (p0 : Path D) (hp0 : p0.Good)
    (hhead : p0.point z ⟨r.x, r.y, signed z r.z⟩ = ⟨r.x, r.y, signed z r.z⟩)
    (paths : List (Path D)) (hp : ∀ p ∈ paths, p.Good) (rest : File) (hr : ∀ l ∈ rest.head?, startsWith l cs!"PATH" = false) :
    loadWl (fileWL name z wref between (p0 :: paths) rest) =
      .ok { name := name, points := (p0 :: paths).map (Path.point z ⟨r.x, r.y, signed z r.z⟩), edges := polyline (paths.length + 1) } := by
  rw [wl_loaded hname z hw hs h1 h2 h3 between hb p0 hp0 paths hp rest hr, List.map_cons, hhead]

/-- A well with two path records below the well head. -/
def well : File := fileWL (D := Int) none true cs!"WREF 100 200 0" []
  [⟨cs!"PATH 10 10 1 1", cs!"10", 10, 1, 1⟩, ⟨cs!"PATH 20 20 2 2", cs!"20", 20, 2, 2⟩] [cs!"END"]

/-- **C20 fails**: the first record is not in the polyline. -/
theorem wl_first_record_lost : (loadWl well : Res (Well Int)) =
    .ok { points := [⟨100, 200, 0⟩, ⟨102, 202, 20⟩], edges := [(0, 1)] } := by decide +kernel

/-- Records after a line that is not a record are not read either. -/
theorem wl_interrupted : (loadWl (well ++ [cs!"PATH 30 30 3 3"]) : Res (Well Int)) = loadWl well := by decide +kernel

example : (⟨cs!"PATH 10 10 1 1", cs!"10", 10, 1, 1⟩ : Path Int).Good :=
  ⟨by decide, cs!"PATH", cs!"10", cs!"1", cs!"1", by decide, by decide, by decide, by decide⟩

example : (⟨cs!"PATH 0 0 0 0", cs!"0", 0, 0, 0⟩ : Path Int).point true ⟨100, 200, 0⟩ = ⟨100, 200, 0⟩ := rfl

end Verif.Props.Wells
