import Verif.Model.Skua
import Mathlib.Data.List.Nodup

/-!
# SKUA stratigraphic columns (C50)
-/

namespace Verif.Props.Skua

open Verif Verif.Skua Res

/-! ## What a column says -/

/-- A bound of a unit: the name of a horizon and whether the relation is structural. -/
structure Bound where
  name : Str
  structural : Bool
  deriving DecidableEq

/-- A unit of a column. -/
structure Unit' where
  name : Str
  tops : List Bound
  bases : List Bound
  deriving DecidableEq

/-- The bound described by a node. -/
def boundOf (n : Node) : Bound :=
  ⟨strip (childValue (childOf (some n) cs!"name")), decide (strip (childValue (childOf (some n) cs!"relation")) = cs!"structural")⟩

/-- The unit described by a node. -/
def unitOf (n : Node) : Unit' :=
  ⟨strip (childValue (childOf (some n) cs!"name")), (childrenOf (some n) cs!"top").map boundOf, (childrenOf (some n) cs!"base").map boundOf⟩

/-- Number of structural tops of a name. -/
def nbTops (us : List Unit') (n : Str) : Nat := ((us.flatMap Unit'.tops).filter fun b => b.structural && b.name = n).length

/-- Number of structural bases of a name. -/
def nbBases (us : List Unit') (n : Str) : Nat := ((us.flatMap Unit'.bases).filter fun b => b.structural && b.name = n).length

/-- The contact after so many structural tops and bases. -/
def contactOf (tops bases : Nat) : Contact :=
  match tops, bases with
  | 0, 0 => .conformal
  | 1, 0 => .erosion
  | 0, 1 => .baselap
  | _, _ => .discontinuity

/-! ## Steps -/

theorem find_touch (first : Contact) (hs : List (Str × Contact)) (n k : Str) :
    (touch first hs n).lookup k = if k = n then (hs.lookup k).map (fun c => if c = .conformal then first else .discontinuity) else hs.lookup k := by
  induction hs with
  | nil => simp [touch]
  | cons h hs ih =>
    have e : touch first (h :: hs) n = (if h.1 = n then (h.1, if h.2 = .conformal then first else .discontinuity) else h) :: touch first hs n := rfl
    rw [e]
    obtain ⟨a, c⟩ := h
    by_cases han : a = n
    · subst han
      simp only [if_true]
      by_cases hk : k = a
      · subst hk; simp [List.lookup_cons]
      · simp only [List.lookup_cons, beq_iff_eq, hk, if_false]
        have hka : (k == a) = false := by simpa using hk
        rw [hka]
        simp only
        rw [ih, if_neg hk]
    · simp only [han, if_false]
      by_cases hk : k = a
      · subst hk; simp [List.lookup_cons, han]
      · have hka : (k == a) = false := by simpa using hk
        simp only [List.lookup_cons, hka]
        rw [ih]

theorem find_add (hs : List (Str × Contact)) (n k : Str) :
    (addHorizon hs n).lookup k = if k = n then some ((hs.lookup k).getD .conformal) else hs.lookup k := by
  have hany : ∀ hs : List (Str × Contact), hs.any (fun h => h.1 = n) = (hs.lookup n).isSome := by
    intro hs
    induction hs with
    | nil => rfl
    | cons h hs ih =>
      obtain ⟨a, c⟩ := h
      by_cases ha : a = n
      · subst ha; simp [List.lookup_cons]
      · have : (n == a) = false := by simpa using Ne.symm ha
        simp only [List.any_cons, List.lookup_cons, this, ha, decide_false, Bool.false_or]
        exact ih
  have happ : ∀ hs : List (Str × Contact), (hs ++ [(n, Contact.conformal)]).lookup k = (hs.lookup k).or (if k = n then some .conformal else none) := by
    intro hs
    induction hs with
    | nil =>
      by_cases hk : k = n
      · simp [List.lookup_cons, hk]
      · have : (k == n) = false := by simpa using hk
        simp [List.lookup_cons, hk, this]
    | cons h hs ih =>
      obtain ⟨a, c⟩ := h
      rw [List.cons_append, List.lookup_cons, List.lookup_cons]
      cases hka : (k == a)
      · simpa using ih
      · simp
  unfold addHorizon
  rw [hany]
  by_cases h : (hs.lookup n).isSome = true
  · rw [if_pos h]
    by_cases hk : k = n
    · subst hk
      rw [if_pos rfl]
      obtain ⟨c, hc⟩ := Option.isSome_iff_exists.1 h
      rw [hc]; rfl
    · rw [if_neg hk]
  · rw [if_neg h, happ]
    by_cases hk : k = n
    · subst hk
      have : hs.lookup k = none := Option.not_isSome_iff_eq_none.1 h
      rw [if_pos rfl, if_pos rfl, this]; rfl
    · rw [if_neg hk, if_neg hk]; simp

theorem names_touch (first : Contact) (hs : List (Str × Contact)) (n : Str) : (touch first hs n).map Prod.fst = hs.map Prod.fst := by
  unfold touch
  rw [List.map_map]
  refine List.map_congr_left fun h _ => ?_
  simp only [Function.comp]; split <;> rfl

/-- Adding a name to a list of distinct names. -/
def addName (l : List Str) (n : Str) : List Str := if n ∈ l then l else l ++ [n]

theorem names_add (hs : List (Str × Contact)) (n : Str) : (addHorizon hs n).map Prod.fst = addName (hs.map Prod.fst) n := by
  unfold addHorizon addName
  have : (hs.any fun h => h.1 = n) = decide (n ∈ hs.map Prod.fst) := by
    rw [Bool.eq_iff_iff, List.any_eq_true, decide_eq_true_eq, List.mem_map]
    simp only [decide_eq_true_eq]
  rw [this]
  by_cases h : n ∈ hs.map Prod.fst
  · rw [if_pos h, if_pos (by simpa using h)]
  · rw [if_neg h, if_neg (by simpa using h)]; simp

/-- The state once the tops `ts` and the bases `bs` have been read. -/
structure Read (ts bs : List Bound) (s : Stack) : Prop where
  nodup : (s.horizons.map Prod.fst).Nodup
  names : ∀ n, n ∈ s.horizons.map Prod.fst ↔ ∃ b ∈ ts ++ bs, b.name = n
  contact : ∀ n, s.horizons.lookup n = if n ∈ s.horizons.map Prod.fst then
    some (contactOf (ts.filter fun b => b.structural && b.name = n).length (bs.filter fun b => b.structural && b.name = n).length) else none

theorem contact_top (t b : Nat) : (if contactOf t b = .conformal then Contact.erosion else .discontinuity) = contactOf (t + 1) b := by
  match t, b with
  | 0, 0 => rfl
  | 0, 1 => rfl
  | 0, _ + 2 => rfl
  | 1, 0 => rfl
  | 1, _ + 1 => rfl
  | _ + 2, 0 => rfl
  | _ + 2, _ + 1 => rfl

theorem contact_base (t b : Nat) : (if contactOf t b = .conformal then Contact.baselap else .discontinuity) = contactOf t (b + 1) := by
  match t, b with
  | 0, 0 => rfl
  | 0, 1 => rfl
  | 0, _ + 2 => rfl
  | 1, 0 => rfl
  | 1, _ + 1 => rfl
  | _ + 2, 0 => rfl
  | _ + 2, _ + 1 => rfl

theorem mem_addName (l : List Str) (n k : Str) : k ∈ addName l n ↔ k ∈ l ∨ k = n := by
  unfold addName
  split
  · constructor
    · exact Or.inl
    · rintro (h | rfl)
      · exact h
      · assumption
  · simp

theorem nodup_addName {l : List Str} (h : l.Nodup) (n : Str) : (addName l n).Nodup := by
  unfold addName
  split
  · exact h
  · rename_i hn
    rw [List.nodup_append]
    exact ⟨h, by simp, by intro a ha b hb; simp at hb; subst hb; rintro rfl; exact hn ha⟩

/-- What a bound does to the horizons. -/
theorem horizons_step {hs hs' : List (Str × Contact)} {c : Str → Contact} {b : Bound} {first : Contact}
    (hn : (hs.map Prod.fst).Nodup) (hc : ∀ n, hs.lookup n = if n ∈ hs.map Prod.fst then some (c n) else none) (hdef : b.name ∉ hs.map Prod.fst → c b.name = .conformal)
    (e : hs' = if b.structural = true then touch first (addHorizon hs b.name) b.name else addHorizon hs b.name) :
    (hs'.map Prod.fst).Nodup ∧ (∀ n, n ∈ hs'.map Prod.fst ↔ n ∈ hs.map Prod.fst ∨ n = b.name) ∧
    ∀ n, hs'.lookup n = if n ∈ hs'.map Prod.fst then
      some (if b.structural && b.name = n then (if c n = .conformal then first else .discontinuity) else c n) else none := by
  have hnames : hs'.map Prod.fst = addName (hs.map Prod.fst) b.name := by
    rw [e]; split
    · rw [names_touch, names_add]
    · rw [names_add]
  refine ⟨by rw [hnames]; exact nodup_addName hn _, fun n => by rw [hnames]; exact mem_addName _ _ _, ?_⟩
  intro n
  have hadd : (addHorizon hs b.name).lookup n = if n ∈ hs'.map Prod.fst then some (c n) else none := by
    rw [find_add, hc]
    simp only [hnames, mem_addName]
    by_cases hnb : n = b.name
    · subst hnb
      rw [if_pos rfl, if_pos (Or.inr rfl)]
      by_cases hin : b.name ∈ hs.map Prod.fst
      · rw [if_pos hin]; rfl
      · rw [if_neg hin, hdef hin]; rfl
    · rw [if_neg hnb]
      by_cases hin : n ∈ hs.map Prod.fst
      · rw [if_pos hin, if_pos (Or.inl hin)]
      · rw [if_neg hin, if_neg (fun h => h.elim hin hnb)]
  have key := congrArg (List.lookup n) e
  rw [key]
  clear key e
  cases hb : b.structural
  · simp only [Bool.false_eq_true, if_false, Bool.false_and]
    exact hadd
  · simp only [if_true, Bool.true_and, decide_eq_true_eq]
    rw [find_touch, hadd]
    by_cases hnb : n = b.name
    · subst hnb
      rw [if_pos rfl, if_pos rfl]
      by_cases hin : b.name ∈ hs'.map Prod.fst
      · rw [if_pos hin, if_pos hin]; rfl
      · rw [if_neg hin, if_neg hin]; rfl
    · rw [if_neg hnb, if_neg (Ne.symm hnb)]

theorem Read.top {ts bs : List Bound} {s : Stack} (h : Read ts bs s) (u : Nat) (n : Node) : Read (ts ++ [boundOf n]) bs (readTop u s n) := by
  have e : (readTop u s n).horizons = if (boundOf n).structural = true then touch .erosion (addHorizon s.horizons (boundOf n).name) (boundOf n).name
      else addHorizon s.horizons (boundOf n).name := by
    unfold readTop boundOf
    simp only [decide_eq_true_eq]
    split <;> rfl
  have hdef : (boundOf n).name ∉ s.horizons.map Prod.fst → contactOf (ts.filter fun b => b.structural && b.name = (boundOf n).name).length
      (bs.filter fun b => b.structural && b.name = (boundOf n).name).length = .conformal := by
    intro hb
    have hno : ∀ l : List Bound, (∀ x ∈ l, x ∈ ts ++ bs) → (l.filter fun x => x.structural && decide (x.name = (boundOf n).name)).length = 0 := by
      intro l hl
      rw [List.length_eq_zero_iff, List.filter_eq_nil_iff]
      intro x hx hx2
      simp only [Bool.and_eq_true, decide_eq_true_eq] at hx2
      exact hb ((h.names _).2 ⟨x, hl x hx, hx2.2⟩)
    rw [hno ts (fun x hx => by simp [hx]), hno bs (fun x hx => by simp [hx])]; rfl
  obtain ⟨h1, h2, h3⟩ := horizons_step (c := fun n => contactOf (ts.filter fun b => b.structural && b.name = n).length (bs.filter fun b => b.structural && b.name = n).length)
    h.nodup h.contact hdef e
  refine ⟨h1, ?_, ?_⟩
  · intro k
    rw [h2, h.names]
    simp only [List.mem_append, List.mem_singleton]
    constructor
    · rintro (⟨b, hb, rfl⟩ | rfl)
      · exact ⟨b, by tauto, rfl⟩
      · exact ⟨_, Or.inl (Or.inr rfl), rfl⟩
    · rintro ⟨b, (hb | rfl) | hb, rfl⟩
      · exact Or.inl ⟨b, Or.inl hb, rfl⟩
      · exact Or.inr rfl
      · exact Or.inl ⟨b, Or.inr hb, rfl⟩
  · intro k
    rw [h3 k]
    simp only [List.filter_append, List.length_append, List.filter_cons, List.filter_nil]
    by_cases hb : ((boundOf n).structural && decide ((boundOf n).name = k)) = true
    · simp only [hb, if_true, List.length_cons, List.length_nil, contact_top]
    · simp only [hb, if_false, List.length_nil, Nat.add_zero]; rfl

theorem Read.base {ts bs : List Bound} {s : Stack} (h : Read ts bs s) (u : Nat) (n : Node) : Read ts (bs ++ [boundOf n]) (readBase u s n) := by
  have e : (readBase u s n).horizons = if (boundOf n).structural = true then touch .baselap (addHorizon s.horizons (boundOf n).name) (boundOf n).name
      else addHorizon s.horizons (boundOf n).name := by
    unfold readBase boundOf
    simp only [decide_eq_true_eq]
    split <;> rfl
  have hdef : (boundOf n).name ∉ s.horizons.map Prod.fst → contactOf (ts.filter fun b => b.structural && b.name = (boundOf n).name).length
      (bs.filter fun b => b.structural && b.name = (boundOf n).name).length = .conformal := by
    intro hb
    have hno : ∀ l : List Bound, (∀ x ∈ l, x ∈ ts ++ bs) → (l.filter fun x => x.structural && decide (x.name = (boundOf n).name)).length = 0 := by
      intro l hl
      rw [List.length_eq_zero_iff, List.filter_eq_nil_iff]
      intro x hx hx2
      simp only [Bool.and_eq_true, decide_eq_true_eq] at hx2
      exact hb ((h.names _).2 ⟨x, hl x hx, hx2.2⟩)
    rw [hno ts (fun x hx => by simp [hx]), hno bs (fun x hx => by simp [hx])]; rfl
  obtain ⟨h1, h2, h3⟩ := horizons_step (c := fun n => contactOf (ts.filter fun b => b.structural && b.name = n).length (bs.filter fun b => b.structural && b.name = n).length)
    h.nodup h.contact hdef e
  refine ⟨h1, ?_, ?_⟩
  · intro k
    rw [h2, h.names]
    simp only [List.mem_append, List.mem_singleton]
    constructor
    · rintro (⟨b, hb, rfl⟩ | rfl)
      · exact ⟨b, by tauto, rfl⟩
      · exact ⟨_, Or.inr (Or.inr rfl), rfl⟩
    · rintro ⟨b, hb | hb | rfl, rfl⟩
      · exact Or.inl ⟨b, Or.inl hb, rfl⟩
      · exact Or.inl ⟨b, Or.inr hb, rfl⟩
      · exact Or.inr rfl
  · intro k
    rw [h3 k]
    simp only [List.filter_append, List.length_append, List.filter_cons, List.filter_nil]
    by_cases hb : ((boundOf n).structural && decide ((boundOf n).name = k)) = true
    · simp only [hb, if_true, List.length_cons, List.length_nil, contact_base]
    · simp only [hb, if_false, List.length_nil, Nat.add_zero]; rfl

theorem readTop_rest (u : Nat) (s : Stack) (n : Node) : (readTop u s n).name = s.name ∧ (readTop u s n).units = s.units ∧
    (readTop u s n).above = s.above ++ [((boundOf n).name, u)] ∧ (readTop u s n).under = s.under := by
  unfold readTop boundOf; simp only; split <;> exact ⟨rfl, rfl, rfl, rfl⟩

theorem readBase_rest (u : Nat) (s : Stack) (n : Node) : (readBase u s n).name = s.name ∧ (readBase u s n).units = s.units ∧
    (readBase u s n).under = s.under ++ [((boundOf n).name, u)] ∧ (readBase u s n).above = s.above := by
  unfold readBase boundOf; simp only; split <;> exact ⟨rfl, rfl, rfl, rfl⟩

theorem tops_ok (u : Nat) : ∀ (ns : List Node) (ts bs : List Bound) (s : Stack), Read ts bs s →
    Read (ts ++ ns.map boundOf) bs (ns.foldl (readTop u) s) ∧ (ns.foldl (readTop u) s).name = s.name ∧ (ns.foldl (readTop u) s).units = s.units ∧
      (ns.foldl (readTop u) s).above = s.above ++ (ns.map boundOf).map (fun b => (b.name, u)) ∧ (ns.foldl (readTop u) s).under = s.under := by
  intro ns
  induction ns with
  | nil => intro ts bs s h; simpa using h
  | cons n ns ih =>
    intro ts bs s h
    obtain ⟨i1, i2, i3, i4, i5⟩ := ih _ _ _ (h.top u n)
    obtain ⟨r1, r2, r3, r4⟩ := readTop_rest u s n
    rw [List.foldl_cons]
    refine ⟨?_, i2.trans r1, i3.trans r2, ?_, i5.trans r4⟩
    · simpa using i1
    · rw [i4, r3]; simp

theorem bases_ok (u : Nat) : ∀ (ns : List Node) (ts bs : List Bound) (s : Stack), Read ts bs s →
    Read ts (bs ++ ns.map boundOf) (ns.foldl (readBase u) s) ∧ (ns.foldl (readBase u) s).name = s.name ∧ (ns.foldl (readBase u) s).units = s.units ∧
      (ns.foldl (readBase u) s).under = s.under ++ (ns.map boundOf).map (fun b => (b.name, u)) ∧ (ns.foldl (readBase u) s).above = s.above := by
  intro ns
  induction ns with
  | nil => intro ts bs s h; simpa using h
  | cons n ns ih =>
    intro ts bs s h
    obtain ⟨i1, i2, i3, i4, i5⟩ := ih _ _ _ (h.base u n)
    obtain ⟨r1, r2, r3, r4⟩ := readBase_rest u s n
    rw [List.foldl_cons]
    refine ⟨?_, i2.trans r1, i3.trans r2, ?_, i5.trans r4⟩
    · simpa using i1
    · rw [i4, r3]; simp

/-- Pairs of the names of bounds and the ranks of their units, the ranks from `k`. -/
def pairs (f : Unit' → List Bound) (k : Nat) : List Unit' → List (Str × Nat)
  | [] => []
  | u :: us => (f u).map (fun b => (b.name, k)) ++ pairs f (k + 1) us

theorem mem_pairs (f : Unit' → List Bound) (us : List Unit') (k : Nat) (n : Str) (r : Nat) :
    (n, r) ∈ pairs f k us ↔ ∃ (i : Nat) (u : Unit'), r = k + i ∧ us[i]? = some u ∧ ∃ b ∈ f u, b.name = n := by
  induction us generalizing k with
  | nil => simp [pairs]
  | cons u us ih =>
    rw [pairs, List.mem_append, ih]
    constructor
    · rintro (h | ⟨i, v, e, hi, h⟩)
      · obtain ⟨b, hb, e⟩ := List.mem_map.1 h
        simp only [Prod.mk.injEq] at e
        exact ⟨0, u, by omega, rfl, b, hb, e.1⟩
      · exact ⟨i + 1, v, by omega, by simpa using hi, h⟩
    · rintro ⟨i, v, e, hi, b, hb, e2⟩
      cases i with
      | zero =>
        simp at hi; subst hi
        exact Or.inl (List.mem_map.2 ⟨b, hb, by simp [e, e2]⟩)
      | succ i => exact Or.inr ⟨i, v, by omega, by simpa using hi, b, hb, e2⟩

theorem units_ok : ∀ (ns : List Node) (ts bs : List Bound) (s : Stack), Read ts bs s →
    Read (ts ++ (ns.map unitOf).flatMap Unit'.tops) (bs ++ (ns.map unitOf).flatMap Unit'.bases) (ns.foldl readUnit s) ∧
      (ns.foldl readUnit s).name = s.name ∧ (ns.foldl readUnit s).units = s.units ++ (ns.map unitOf).map Unit'.name ∧
      (ns.foldl readUnit s).above = s.above ++ pairs Unit'.tops s.units.length (ns.map unitOf) ∧
      (ns.foldl readUnit s).under = s.under ++ pairs Unit'.bases s.units.length (ns.map unitOf) := by
  intro ns
  induction ns with
  | nil => intro ts bs s h; simpa [pairs] using h
  | cons n ns ih =>
    intro ts bs s h
    have h0 : Read ts bs { s with units := s.units ++ [(unitOf n).name] } := ⟨h.nodup, h.names, h.contact⟩
    obtain ⟨a1, a2, a3, a4, a5⟩ := tops_ok s.units.length (childrenOf (some n) cs!"top") _ _ _ h0
    obtain ⟨b1, b2, b3, b4, b5⟩ := bases_ok s.units.length (childrenOf (some n) cs!"base") _ _ _ a1
    have e : readUnit s n = (childrenOf (some n) cs!"base").foldl (readBase s.units.length)
        ((childrenOf (some n) cs!"top").foldl (readTop s.units.length) { s with units := s.units ++ [(unitOf n).name] }) := rfl
    rw [← e] at b1 b2 b3 b4 b5
    obtain ⟨i1, i2, i3, i4, i5⟩ := ih _ _ _ b1
    have hu : (readUnit s n).units = s.units ++ [(unitOf n).name] := b3.trans a3
    rw [List.foldl_cons]
    refine ⟨?_, i2.trans (b2.trans a2), ?_, ?_, ?_⟩
    · have t1 : ts ++ ((n :: ns).map unitOf).flatMap Unit'.tops = ts ++ (childrenOf (some n) cs!"top").map boundOf ++ (ns.map unitOf).flatMap Unit'.tops := by
        simp [unitOf]
      have t2 : bs ++ ((n :: ns).map unitOf).flatMap Unit'.bases = bs ++ (childrenOf (some n) cs!"base").map boundOf ++ (ns.map unitOf).flatMap Unit'.bases := by
        simp [unitOf]
      rw [t1, t2]; exact i1
    · rw [i3, hu]; simp
    · rw [i4, hu, b5, a4]
      simp [pairs, unitOf]
    · rw [i5, hu, b4, a5]
      simp [pairs, unitOf]

/-- The nodes of the units of a document. -/
def unitNodes (doc : Node) : List Node :=
  childrenOf (childOf (childOf (childOf (some doc) cs!"UserObjects") cs!"LocalStratigraphicColumn") cs!"units") cs!"unit"

/-- What a loaded stack has, for the units of a column. -/
structure Says (us : List Unit') (s : Stack) : Prop where
  units : s.units = us.map Unit'.name
  names : (s.horizons.map Prod.fst).Nodup
  all : ∀ n, n ∈ s.horizons.map Prod.fst ↔ ∃ u ∈ us, ∃ b ∈ u.tops ++ u.bases, b.name = n
  above : ∀ n r, (n, r) ∈ s.above ↔ ∃ u, us[r]? = some u ∧ ∃ b ∈ u.tops, b.name = n
  under : ∀ n r, (n, r) ∈ s.under ↔ ∃ u, us[r]? = some u ∧ ∃ b ∈ u.bases, b.name = n
  contacts : ∀ n c, (n, c) ∈ s.horizons → c = contactOf (nbTops us n) (nbBases us n)

/-- Every loaded stack has the units of the column, one horizon per name of top or base, the relations of the tops and bases, and the contacts given by
the numbers of structural tops and bases. -/
theorem stack_says {doc : Node} {s : Stack} (h : loadSkua (some doc) = .ok s) : Says ((unitNodes doc).map unitOf) s := by
  unfold loadSkua at h
  obtain ⟨d, e1, h1⟩ := bind_eq_ok.1 h
  cases e1
  obtain ⟨b, e2, h2⟩ := bind_eq_ok.1 h1
  have := Res.ok.inj h2
  clear h1 h2 h
  obtain ⟨i1, i2, i3, i4, i5⟩ := units_ok (unitNodes doc) [] [] { name := strip (childValue (childOf (childOf (childOf (some doc) cs!"UserObjects") cs!"LocalStratigraphicColumn") cs!"name")) } ⟨by simp, by simp, by simp⟩
  have hs : s = (unitNodes doc).foldl readUnit { name := strip (childValue (childOf (childOf (childOf (some doc) cs!"UserObjects") cs!"LocalStratigraphicColumn") cs!"name")) } := this.symm
  rw [← hs] at i1 i2 i3 i4 i5
  refine ⟨by simpa using i3, i1.nodup, ?_, ?_, ?_, ?_⟩
  · intro n
    rw [i1.names]
    simp only [List.nil_append, List.mem_append, List.mem_flatMap]
    constructor
    · rintro ⟨b, ⟨u, hu, hb⟩ | ⟨u, hu, hb⟩, rfl⟩
      · exact ⟨u, hu, b, Or.inl hb, rfl⟩
      · exact ⟨u, hu, b, Or.inr hb, rfl⟩
    · rintro ⟨u, hu, b, hb | hb, rfl⟩
      · exact ⟨b, Or.inl ⟨u, hu, hb⟩, rfl⟩
      · exact ⟨b, Or.inr ⟨u, hu, hb⟩, rfl⟩
  · intro n r
    rw [i4]
    simp only [List.nil_append, List.length_nil, mem_pairs, Nat.zero_add]
    constructor
    · rintro ⟨i, u, rfl, hu, hb⟩; exact ⟨u, hu, hb⟩
    · rintro ⟨u, hu, hb⟩; exact ⟨r, u, rfl, hu, hb⟩
  · intro n r
    rw [i5]
    simp only [List.nil_append, List.length_nil, mem_pairs, Nat.zero_add]
    constructor
    · rintro ⟨i, u, rfl, hu, hb⟩; exact ⟨u, hu, hb⟩
    · rintro ⟨u, hu, hb⟩; exact ⟨r, u, rfl, hu, hb⟩
  · intro n c hc
    have hl : s.horizons.lookup n = some c := by
      have hn := i1.nodup
      clear i1 i2 i3 i4 i5 hs this
      generalize s.horizons = hs at hc hn
      induction hs with
      | nil => simp at hc
      | cons a hs ih =>
        obtain ⟨a, d⟩ := a
        rw [List.map_cons, List.nodup_cons] at hn
        rcases List.mem_cons.1 hc with e | hc
        · cases e; simp [List.lookup_cons]
        · have hna : n ≠ a := fun e => hn.1 (List.mem_map.2 ⟨_, hc, e⟩)
          have : (n == a) = false := by simpa using hna
          rw [List.lookup_cons, this]
          exact ih hc hn.2
    have := i1.contact n
    rw [hl, if_pos (List.mem_map_of_mem (f := Prod.fst) hc)] at this
    exact Option.some.inj this

/-- The contact that the structural relations of a name state: an erosion when the horizon is the structural top of a unit, a baselap when it is the
structural base of a unit, a discontinuity when it is both. -/
def stated (us : List Unit') (n : Str) : Contact :=
  match decide (∃ u ∈ us, ∃ b ∈ u.tops, b.structural = true ∧ b.name = n), decide (∃ u ∈ us, ∃ b ∈ u.bases, b.structural = true ∧ b.name = n) with
  | false, false => .conformal
  | true, false => .erosion
  | false, true => .baselap
  | true, true => .discontinuity

theorem nb_pos (f : Unit' → List Bound) (us : List Unit') (n : Str) :
    0 < ((us.flatMap f).filter fun b => b.structural && b.name = n).length ↔ ∃ u ∈ us, ∃ b ∈ f u, b.structural = true ∧ b.name = n := by
  rw [List.length_pos_iff_exists_mem]
  constructor
  · rintro ⟨b, hb⟩
    obtain ⟨h1, h2⟩ := List.mem_filter.1 hb
    obtain ⟨u, hu, hb⟩ := List.mem_flatMap.1 h1
    exact ⟨u, hu, b, hb, by simpa using h2⟩
  · rintro ⟨u, hu, b, hb, h⟩
    exact ⟨b, List.mem_filter.2 ⟨List.mem_flatMap.2 ⟨u, hu, hb⟩, by simpa using h⟩⟩

/-- C50 when no horizon is the structural top of two units or the structural base of two units. -/
theorem contacts_partial {doc : Node} {s : Stack} (h : loadSkua (some doc) = .ok s) {n : Str} {c : Contact} (hc : (n, c) ∈ s.horizons)
    (h1 : nbTops ((unitNodes doc).map unitOf) n ≤ 1) (h2 : nbBases ((unitNodes doc).map unitOf) n ≤ 1) : c = stated ((unitNodes doc).map unitOf) n := by
  rw [(stack_says h).contacts n c hc]
  generalize (unitNodes doc).map unitOf = us at h1 h2
  have t := nb_pos Unit'.tops us n
  have b := nb_pos Unit'.bases us n
  have t' : (0 < nbTops us n ↔ _) := t
  have b' : (0 < nbBases us n ↔ _) := b
  unfold stated
  have e1 : decide (∃ u ∈ us, ∃ b ∈ u.tops, b.structural = true ∧ b.name = n) = decide (0 < nbTops us n) := by simp only [t']
  have e2 : decide (∃ u ∈ us, ∃ b ∈ u.bases, b.structural = true ∧ b.name = n) = decide (0 < nbBases us n) := by simp only [b']
  rw [e1, e2]
  generalize nbTops us n = x at h1
  generalize nbBases us n = y at h2
  match x, y, h1, h2 with
  | 0, 0, _, _ => rfl
  | 0, 1, _, _ => rfl
  | 1, 0, _, _ => rfl
  | 1, 1, _, _ => rfl

/-- A name that is a structural top twice is a discontinuity, whatever the bases are. -/
theorem two_tops_discontinuity {doc : Node} {s : Stack} (h : loadSkua (some doc) = .ok s) {n : Str} {c : Contact} (hc : (n, c) ∈ s.horizons)
    (h1 : 2 ≤ nbTops ((unitNodes doc).map unitOf) n) : c = .discontinuity := by
  rw [(stack_says h).contacts n c hc]
  generalize nbTops ((unitNodes doc).map unitOf) n = x at h1
  match x, h1 with
  | x + 2, _ => rfl

/-- A node with a text. -/
def leaf (tag s : Str) : Node := .elem tag [] [.text s]

/-- A document. -/
def document (attrs : List (Str × Str)) (units : List Node) : Node :=
  .elem cs!"doc" [] [.elem cs!"UserObjects" [] [.elem cs!"LocalStratigraphicColumn" [] [leaf cs!"name" cs!" col ", .elem cs!"units" attrs units]]]

/-- A bound of a unit. -/
def bound (tag name relation : Str) : Node := .elem tag [] [leaf cs!"name" name, leaf cs!"relation" relation]

/-- Two units under the same erosion. -/
def twoEroded : Node := document [(cs!"use_base_names", cs!"true")]
  [.elem cs!"unit" [] [leaf cs!"name" cs!"A", bound cs!"top" cs!" h " cs!"structural"],
   .elem cs!"unit" [] [leaf cs!"name" cs!"B", bound cs!"top" cs!"h" cs!"structural"]]

/-- C50 is false: two units have the structural top `h`, no unit has it as base, and it is loaded as a discontinuity. -/
theorem eroded_twice : ∃ s, loadSkua (some twoEroded) = .ok s ∧ s.horizons = [(cs!"h", .discontinuity)] ∧
    stated ((unitNodes twoEroded).map unitOf) cs!"h" = .erosion := by
  refine ⟨_, rfl, by decide +kernel, by decide +kernel⟩

/-- Erosion, baselap and discontinuity of a column of three units. -/
example : (match loadSkua (some (document [(cs!"use_base_names", cs!"0")]
    [.elem cs!"unit" [] [leaf cs!"name" cs!"A", bound cs!"base" cs!"a" cs!"structural"],
     .elem cs!"unit" [] [leaf cs!"name" cs!"B", bound cs!"top" cs!"a" cs!"structural", bound cs!"base" cs!"b" cs!"structural"],
     .elem cs!"unit" [] [leaf cs!"name" cs!"C", bound cs!"top" cs!"b" cs!"stratigraphic", bound cs!"base" cs!"c" cs!"stratigraphic"]])) with
    | .ok s => (s.units, s.horizons, s.above, s.under) | _ => ([], [], [], [])) =
    ([cs!"A", cs!"B", cs!"C"], [(cs!"a", .discontinuity), (cs!"b", .baselap), (cs!"c", .conformal)], [(cs!"a", 1), (cs!"b", 2)],
      [(cs!"a", 0), (cs!"b", 1), (cs!"c", 2)]) := by decide +kernel

/-! ## Errors -/

/-- A file that is not XML, or has no readable `use_base_names`, is refused. -/
theorem refused : loadSkua none = .throw ∧ ∀ us, loadSkua (some (document [] us)) = .throw :=
  ⟨rfl, fun _ => rfl⟩

/-- A missing column is refused. -/
theorem no_column_throws (doc : Node) (h : childOf (childOf (some doc) cs!"UserObjects") cs!"LocalStratigraphicColumn" = none) : loadSkua (some doc) = .throw := by
  unfold loadSkua
  simp only [ofParse_some, ok_bind, h]
  rfl

/-- Nothing else is refused: the value of `use_base_names` decides and is not used. -/
theorem loads_iff (doc : Node) : (∃ s, loadSkua (some doc) = .ok s) ↔
    (atob (attrValue (childOf (childOf (childOf (some doc) cs!"UserObjects") cs!"LocalStratigraphicColumn") cs!"units") cs!"use_base_names")).isSome = true := by
  unfold loadSkua
  simp only [ofParse_some, ok_bind]
  cases atob (attrValue (childOf (childOf (childOf (some doc) cs!"UserObjects") cs!"LocalStratigraphicColumn") cs!"units") cs!"use_base_names") with
  | none => simp
  | some b => simp

/-- Blank characters: space, tabulations, new line, form feed, carriage return. -/
def blanks : List Char := [' ', Char.ofNat 9, Char.ofNat 10, Char.ofNat 11, Char.ofNat 12, Char.ofNat 13]

theorem isSpace_iff (c : Char) : isSpace c = true ↔ c ∈ blanks := by
  have h11 : c.toNat = 11 ↔ c = Char.ofNat 11 := ⟨fun h => by rw [← h, Char.ofNat_toNat], fun h => by rw [h]; rfl⟩
  have h12 : c.toNat = 12 ↔ c = Char.ofNat 12 := ⟨fun h => by rw [← h, Char.ofNat_toNat], fun h => by rw [h]; rfl⟩
  have e9 : Char.ofNat 9 = '\t' := by decide
  have e10 : Char.ofNat 10 = '\n' := by decide
  have e13 : Char.ofNat 13 = '\r' := by decide
  simp only [isSpace, blanks, Bool.or_eq_true, beq_iff_eq, List.mem_cons, List.not_mem_nil, or_false, h11, h12, e9, e10, e13]
  constructor
  · rintro (((((h | h) | h) | h) | h) | h) <;> simp [h]
  · rintro (h | h | h | h | h | h) <;> simp [h]

theorem dropWhile_blank {a w : Str} (ha : ∀ c ∈ a, c ∈ blanks) (hw : ∀ c ∈ w.head?, c ∉ blanks) : (a ++ w).dropWhile isSpace = w := by
  induction a with
  | nil =>
    cases w with
    | nil => rfl
    | cons c w =>
      have : isSpace c = false := by
        rw [← Bool.not_eq_true, isSpace_iff]
        exact hw c rfl
      rw [List.nil_append, List.dropWhile_cons_of_neg (by rw [this]; simp)]
  | cons c a ih =>
    rw [List.cons_append, List.dropWhile_cons_of_pos ((isSpace_iff c).2 (ha c (by simp)))]
    exact ih fun c hc => ha c (List.mem_cons_of_mem _ hc)

/-- **Texts are read without the blanks around them**, and with those inside. -/
theorem strip_blanks {a w b : Str} (ha : ∀ c ∈ a, c ∈ blanks) (hb : ∀ c ∈ b, c ∈ blanks) (h1 : ∀ c ∈ w.head?, c ∉ blanks) (h2 : ∀ c ∈ w.getLast?, c ∉ blanks) :
    strip (a ++ w ++ b) = w := by
  cases w with
  | nil =>
    have : ∀ c ∈ a ++ b, c ∈ blanks := fun c hc => (List.mem_append.1 hc).elim (ha c) (hb c)
    have h := dropWhile_blank (w := []) this (by simp)
    rw [List.append_nil] at h
    unfold strip
    rw [List.append_nil, h]
    rfl
  | cons c w =>
    unfold strip
    rw [List.append_assoc, dropWhile_blank ha (by simpa using h1), List.reverse_append,
      dropWhile_blank (fun c hc => hb c (List.mem_reverse.1 hc)) (by rw [List.head?_reverse]; exact h2), List.reverse_reverse]

example : strip (Char.ofNat 11 :: cs!" \n a b\t" ++ [Char.ofNat 12]) = cs!"a b" := by decide

/-- The words for the two truth values. -/
def truthWords : List Str := [cs!"true", cs!"t", cs!"yes", cs!"y", cs!"1", cs!"false", cs!"f", cs!"no", cs!"n", cs!"0"]

/-- **A file is read exactly when `use_base_names` is one of the words for the truth values**, in any case of letters. -/
theorem read_words (doc : Node) : (∃ s, loadSkua (some doc) = .ok s) ↔
    (attrValue (childOf (childOf (childOf (some doc) cs!"UserObjects") cs!"LocalStratigraphicColumn") cs!"units") cs!"use_base_names").map Char.toLower ∈
      truthWords := by
  rw [loads_iff]
  generalize attrValue _ _ = w
  unfold atob truthWords
  simp only [List.mem_cons, List.not_mem_nil, or_false]
  split
  · rename_i h
    simp only [Option.isSome_some, true_iff]
    rcases h with h | h | h | h | h <;> simp [h]
  · rename_i h
    simp only [not_or] at h
    split
    · rename_i h2
      simp only [Option.isSome_some, true_iff]
      rcases h2 with h2 | h2 | h2 | h2 | h2 <;> simp [h2]
    · rename_i h2
      simp only [not_or] at h2
      simp [h, h2]

example : (∃ s, loadSkua (some (document [(cs!"use_base_names", cs!"Yes")] [])) = .ok s) ∧ ¬∃ s, loadSkua (some (document [(cs!"use_base_names", cs!"on")] [])) = .ok s := by
  rw [read_words, read_words]
  decide +kernel

/-- Bounds without a name share one horizon with an empty name. -/
theorem nameless_shared : (match loadSkua (some (document [(cs!"use_base_names", cs!"no")]
    [.elem cs!"unit" [] [leaf cs!"name" cs!"A", .elem cs!"top" [] []], .elem cs!"unit" [] [leaf cs!"name" cs!"B", .elem cs!"base" [] []]])) with
    | .ok s => some (s.horizons, s.above, s.under) | _ => none) = some ([([], .conformal)], [([], 0)], [([], 1)]) := by decide +kernel

/-! ## Text between elements -/

/-- The node is an element. -/
def isElem : Node → Bool
  | .elem _ _ _ => true
  | .text _ => false

/-- The document without the text between the elements of a node, of those of its children with the first tag of the path, and so on. -/
def tidy : List Str → Node → Node
  | [], .elem t as cs => .elem t as (cs.filter isElem)
  | p :: ps, .elem t as cs => .elem t as ((cs.filter isElem).map fun c => match c with | .elem q _ _ => if q = p then tidy ps c else c | c => c)
  | _, .text s => .text s

theorem tidy_elem (ps : List Str) (q : Str) (as : List (Str × Str)) (cs : List Node) : ∃ ds, tidy ps (.elem q as cs) = .elem q as ds := by
  cases ps with
  | nil => exact ⟨_, rfl⟩
  | cons p ps => exact ⟨_, rfl⟩

theorem childrenOf_tidy_nil (n : Node) (t : Str) : childrenOf (some (tidy [] n)) t = childrenOf (some n) t := by
  cases n with
  | text s => rfl
  | elem q as cs =>
    show ((cs.filter isElem).filter _) = cs.filter _
    rw [List.filter_filter]
    apply List.filter_congr
    intro c _
    cases c <;> simp [isElem]

theorem childrenOf_tidy_same (n : Node) (p : Str) (ps : List Str) : childrenOf (some (tidy (p :: ps) n)) p = (childrenOf (some n) p).map (tidy ps) := by
  cases n with
  | text s => rfl
  | elem q as cs =>
    simp only [childrenOf, Node.kids, tidy]
    induction cs with
    | nil => rfl
    | cons c cs ih =>
      cases c with
      | text s => exact ih
      | elem r bs ds =>
        by_cases h : r = p
        · subst h
          obtain ⟨es, e⟩ := tidy_elem ps r bs ds
          rw [List.filter_cons_of_pos (p := isElem) rfl, List.map_cons]
          simp only [if_true, e]
          rw [List.filter_cons_of_pos (by simp), List.filter_cons_of_pos (by simp), List.map_cons, e, ih]
        · rw [List.filter_cons_of_pos (p := isElem) rfl, List.map_cons]
          simp only [if_neg h]
          rw [List.filter_cons_of_neg (by simp [h]), List.filter_cons_of_neg (by simp [h])]
          exact ih

theorem childrenOf_tidy_other (n : Node) {p t : Str} (ps : List Str) (h : t ≠ p) : childrenOf (some (tidy (p :: ps) n)) t = childrenOf (some n) t := by
  cases n with
  | text s => rfl
  | elem q as cs =>
    simp only [childrenOf, Node.kids, tidy]
    induction cs with
    | nil => rfl
    | cons c cs ih =>
      cases c with
      | text s => exact ih
      | elem r bs ds =>
        by_cases hr : r = p
        · subst hr
          obtain ⟨es, e⟩ := tidy_elem ps r bs ds
          rw [List.filter_cons_of_pos (p := isElem) rfl, List.map_cons]
          simp only [if_true, e]
          rw [List.filter_cons_of_neg (by simpa using fun e => h e.symm), List.filter_cons_of_neg (by simpa using fun e => h e.symm)]
          exact ih
        · rw [List.filter_cons_of_pos (p := isElem) rfl, List.map_cons]
          simp only [if_neg hr]
          by_cases ht : r = t
          · subst ht
            rw [List.filter_cons_of_pos (by simp), List.filter_cons_of_pos (by simp), ih]
          · rw [List.filter_cons_of_neg (by simp [ht]), List.filter_cons_of_neg (by simp [ht])]
            exact ih

theorem childOf_tidy_same (n : Option Node) (p : Str) (ps : List Str) : childOf (n.map (tidy (p :: ps))) p = (childOf n p).map (tidy ps) := by
  cases n with
  | none => rfl
  | some n =>
    unfold childOf
    rw [Option.map_some, childrenOf_tidy_same]
    cases childrenOf (some n) p <;> rfl

theorem readUnit_tidy (s : Stack) (n : Node) : readUnit s (tidy [] n) = readUnit s n := by
  unfold readUnit childOf
  simp only [childrenOf_tidy_nil]

/-- **Text between the elements does not matter**: blanks and other text in the nodes of the document, of the column, of its list of units and of the
units can be removed. -/
theorem text_ignored (doc : Node) :
    loadSkua (some (tidy [cs!"UserObjects", cs!"LocalStratigraphicColumn", cs!"units", cs!"unit"] doc)) = loadSkua (some doc) := by
  unfold loadSkua
  simp only [ofParse_some, ok_bind]
  have h1 := childOf_tidy_same (some doc) cs!"UserObjects" [cs!"LocalStratigraphicColumn", cs!"units", cs!"unit"]
  rw [Option.map_some] at h1
  have h2 := childOf_tidy_same (childOf (some doc) cs!"UserObjects") cs!"LocalStratigraphicColumn" [cs!"units", cs!"unit"]
  rw [h1, h2]
  generalize childOf (childOf (some doc) cs!"UserObjects") cs!"LocalStratigraphicColumn" = root
  have h3 := childOf_tidy_same root cs!"units" [cs!"unit"]
  have h4 : childOf (root.map (tidy [cs!"units", cs!"unit"])) cs!"name" = childOf root cs!"name" := by
    cases root with
    | none => rfl
    | some n =>
      unfold childOf
      rw [Option.map_some, childrenOf_tidy_other _ _ (by decide)]
  rw [h3, h4]
  generalize childOf root cs!"units" = units
  cases units with
  | none => rfl
  | some n =>
    rw [Option.map_some, childrenOf_tidy_same]
    have h5 : ∀ (a : Str), attrValue (some (tidy [cs!"unit"] n)) a = attrValue (some n) a := by
      intro a
      cases n with
      | text s => rfl
      | elem t as cs => rfl
    rw [h5]
    congr 1
    funext b
    rw [List.foldl_map]
    congr 2
    funext s n
    exact readUnit_tidy s n

/-- A column written with a line for each element. -/
example : loadSkua (some (.elem [] [] [.text cs!" ", .elem cs!"UserObjects" [] [.text cs!" ", .elem cs!"LocalStratigraphicColumn" [] [.text cs!" ",
      leaf cs!"name" cs!"c", .elem cs!"units" [(cs!"use_base_names", cs!"no")] [.text cs!" ", .elem cs!"unit" [] [.text cs!" ", leaf cs!"name" cs!"u"]]]]])) =
    .ok { name := cs!"c", units := [cs!"u"] } := by decide +kernel

/-! ## Recognition -/

/-- A file is recognised when a line begins with one blank and the tag. -/
theorem recognised (a b : File) (rest : Str) : isLoadable (a ++ (cs!" <LocalStratigraphicColumn" ++ rest) :: b) = true := by
  unfold isLoadable
  induction a with
  | nil =>
    rw [List.nil_append, gotoKeyword?]
    have : startsWith (cs!" <LocalStratigraphicColumn" ++ rest) cs!" <LocalStratigraphicColumn" = true := by
      unfold startsWith
      rw [List.isPrefixOf_iff_prefix]
      exact List.prefix_append _ _
    rw [if_pos this]; rfl
  | cons x a ih =>
    rw [List.cons_append, gotoKeyword?]
    split
    · rfl
    · exact ih

/-- With another indentation it is not. -/
theorem not_recognised : isLoadable [cs!"<UserObjects>", cs!"<LocalStratigraphicColumn>", cs!"</UserObjects>"] = false ∧
    isLoadable [cs!"<UserObjects>", cs!"  <LocalStratigraphicColumn>", cs!"</UserObjects>"] = false := by decide +kernel

end Verif.Props.Skua
