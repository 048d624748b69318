import Verif.Model.FemNan
import Verif.Props.FemValues

/-!
# FEFLOW properties with undefined values

Values that are not known are often NaN.  `none` is NaN.
-/

namespace Verif.Props.FemNan

open Verif Verif.Fem Verif.FemNan Verif.Props.FemRanges Verif.Props.FemValues

variable {K : Type} [DecidableEq K]

/-- **C187**: each element is listed exactly once, under its own value, when some values are NaN. -/
def AllListed (toStr : Option K → Str) (le : K → K → Bool) (name : Str) (values : List (Option K)) : Prop :=
  ∃ (lines : File) (ps : List (Str × Nat)), writePropertyN toStr le values.length name values = .ok (name :: lines) ∧ readLines lines = some ps ∧
    ps.Perm (values.zipIdx.map fun v => (toStr v.1, v.2 + 1))

/-- The values that are numbers, with the numbers of their elements. -/
def known (values : List (Option K)) : List (K × Nat) := values.zipIdx.filterMap fun v => v.1.map fun k => (k, v.2 + 1)

/-! ## The map -/

/-- The entries of numbers. -/
def numbers (m : List (Option K × List Nat)) : List (K × List Nat) := m.filterMap fun e => e.1.map fun k => (k, e.2)

theorem numbers_push (m : List (Option K × List Nat)) (k : K) (i : Nat) : numbers (push m (some k) i) = push (numbers m) k i := by
  induction m with
  | nil => rfl
  | cons e m ih =>
    obtain ⟨k', l⟩ := e
    rw [push]
    cases k' with
    | none =>
      rw [if_neg (by simp)]
      simpa [numbers] using ih
    | some k' =>
      by_cases h : k' = k
      · simp [numbers, push, h]
      · rw [if_neg (by simpa using h)]
        have : numbers ((some k', l) :: m) = (k', l) :: numbers m := rfl
        rw [this, push, if_neg h, ← ih]
        rfl

theorem numbers_pushN (m : List (Option K × List Nat)) (i : Nat) : numbers (pushN m none i) = numbers m := by simp [numbers, pushN]

theorem getIds_numbers (m : List (Option K × List Nat)) (k : K) : getIdsN m (some k) = getIds (numbers m) k := by
  show getIds m (some k) = _
  induction m with
  | nil => rfl
  | cons e m ih =>
    obtain ⟨k', l⟩ := e
    rw [getIds]
    cases k' with
    | none =>
      rw [if_neg (by simp), ih]
      rfl
    | some k' =>
      have : numbers ((some k', l) :: m) = (k', l) :: numbers m := rfl
      rw [this, getIds, ih]
      simp

theorem none_pushN (m : List (Option K × List Nat)) (k : Option K) (i : Nat) :
    none ∈ (pushN m k i).map Prod.fst ↔ none ∈ m.map Prod.fst ∨ k = none := by
  cases k with
  | none => simp [pushN]
  | some k =>
    unfold pushN
    rw [keys_push]
    split <;> simp

theorem known_append (a : List (Option K)) (v : Option K) : known (a ++ [v]) = known a ++ (v.map fun k => (k, a.length + 1)).toList := by
  unfold known
  rw [List.zipIdx_append, List.filterMap_append]
  cases v <;> simp

theorem distributionN_ok {n : Nat} {values : List (Option K)} (h : n ≤ values.length) :
    ∃ m, distributionN n values = .ok m ∧ ((numbers m).map Prod.fst).Nodup ∧ (pairs (numbers m)).Perm (known (values.take n)) ∧
      (∀ k, k ∈ (numbers m).map Prod.fst ↔ some k ∈ values.take n) ∧ (none ∈ m.map Prod.fst ↔ none ∈ values.take n) := by
  induction n with
  | zero => exact ⟨[], rfl, by simp [numbers], by simp [numbers, pairs, known], by simp [numbers], by simp⟩
  | succ n ih =>
    obtain ⟨m, h1, h2, h3, h4, h5⟩ := ih (by omega)
    refine ⟨pushN m values[n] (n + 1), ?_, ?_, ?_, ?_, ?_⟩
    · unfold distributionN at h1 ⊢
      rw [List.range_succ, Res.foldM'_append, h1, Res.ok_bind, Res.foldM'_cons, Res.index_of_lt (by omega : n < values.length)]
      rfl
    · cases hv : values[n] with
      | none => rw [numbers_pushN]; exact h2
      | some k => rw [show pushN m (some k) (n + 1) = push m (some k) (n + 1) from rfl, numbers_push]; exact nodup_push h2 _ _
    · rw [List.take_succ_eq_append_getElem (by omega), known_append, List.length_take, Nat.min_eq_left (by omega : n ≤ values.length)]
      cases hv : values[n] with
      | none => rw [numbers_pushN]; simpa using h3
      | some k =>
        rw [show pushN m (some k) (n + 1) = push m (some k) (n + 1) from rfl, numbers_push]
        exact (pairs_push _ _ _).trans (h3.append_right _)
    · intro k
      rw [List.take_succ_eq_append_getElem (by omega), List.mem_append, List.mem_singleton]
      cases hv : values[n] with
      | none => rw [numbers_pushN, h4]; simp
      | some k' =>
        rw [show pushN m (some k') (n + 1) = push m (some k') (n + 1) from rfl, numbers_push, keys_push, ← h4]
        split
        · rename_i hk
          constructor
          · exact Or.inl
          · rintro (h | h)
            · exact h
            · cases h; exact hk
        · simp
    · rw [none_pushN, h5, List.take_succ_eq_append_getElem (by omega), List.mem_append, List.mem_singleton]
      exact or_congr Iff.rfl ⟨Eq.symm, Eq.symm⟩

/-! ## Sorting -/

theorem somes_numbers (m : List (Option K × List Nat)) : ((m.map Prod.fst).filter Option.isSome) = ((numbers m).map Prod.fst).map some := by
  induction m with
  | nil => rfl
  | cons e m ih =>
    obtain ⟨k, l⟩ := e
    cases k with
    | none => simpa [numbers] using ih
    | some k =>
      have : numbers ((some k, l) :: m) = (k, l) :: numbers m := rfl
      rw [this]
      simpa using ih

theorem two_of_nodup {l : List K} (h : l.Nodup) : 2 ≤ l.length ↔ ∃ a b, a ∈ l ∧ b ∈ l ∧ a ≠ b := by
  constructor
  · intro hl
    match l, h with
    | a :: b :: l, h => exact ⟨a, b, by simp, by simp, by simp at h; tauto⟩
  · rintro ⟨a, b, ha, hb, hab⟩
    match l with
    | [] => simp at ha
    | [x] =>
      rw [List.mem_singleton] at ha hb
      exact absurd (ha.trans hb.symm) hab
    | _ :: _ :: _ => simp

/-- Some values are NaN, and the others are not all the same. -/
def Mixed (values : List (Option K)) : Prop := none ∈ values ∧ ∃ a b, some a ∈ values ∧ some b ∈ values ∧ a ≠ b

/-- The lines and their content, or undefined behaviour. -/
theorem written {toStr : Option K → Str} (htok : ∀ v, IsTok (toStr v)) (le : K → K → Bool) (name : Str) {values : List (Option K)}
    (hn : values.length + 1 < NO_ID) : (Mixed values ∧ writePropertyN toStr le values.length name values = .ub) ∨
    (¬ Mixed values ∧ ∃ (lines : File) (ps : List (Str × Nat)), writePropertyN toStr le values.length name values = .ok (name :: lines) ∧
      readLines lines = some ps ∧ ps.Perm ((known values).map fun v => (toStr (some v.1), v.2))) := by
  obtain ⟨m, h1, h2, h3, h4, h5⟩ := distributionN_ok (Nat.le_refl values.length)
  rw [List.take_length] at h3 h4 h5
  have hu : unsortable (m.map Prod.fst) = true ↔ Mixed values := by
    unfold unsortable Mixed
    rw [Bool.and_eq_true, decide_eq_true_eq, somes_numbers, List.length_map, two_of_nodup h2, ← h5]
    refine and_congr ?_ ?_
    · rw [List.any_eq_true]
      constructor
      · rintro ⟨x, hx, hn⟩
        cases x with
        | none => exact hx
        | some _ => simp at hn
      · exact fun h => ⟨none, h, rfl⟩
    · simp only [h4]
  unfold writePropertyN
  rw [h1, Res.ok_bind]
  by_cases hm : Mixed values
  · left
    refine ⟨hm, ?_⟩
    unfold sortN
    rw [if_pos (hu.2 hm)]
    rfl
  · right
    refine ⟨hm, ?_⟩
    unfold sortN
    rw [if_neg (fun h => hm (hu.1 h)), Res.ok_bind]
    have hid : ∀ p ∈ pairs (numbers m), p.2 < NO_ID := by
      intro p hp
      have := h3.mem_iff.1 hp
      unfold known at this
      rw [List.mem_filterMap] at this
      obtain ⟨⟨v, i⟩, hv, e⟩ := this
      have := List.snd_lt_of_mem_zipIdx hv
      cases v with
      | none => simp at e
      | some v =>
        simp only [Option.map_some, Option.some.injEq] at e
        subst e
        dsimp only at this ⊢
        omega
    refine ⟨_, (sortKeys (leN le) (m.map Prod.fst)).flatMap fun k => (getIdsN m k).map fun i => (toStr k, i), rfl, readLines_flatMap _ _ _ ?_, ?_⟩
    · intro k hk
      refine readLines_writeChunks (htok _) _ ?_
      intro i hi
      cases k with
      | none => simp [getIdsN] at hi
      | some k =>
        rw [getIds_numbers] at hi
        rw [(sortKeys_perm _ _).mem_iff] at hk
        have hk' : some k ∈ (m.map Prod.fst).filter Option.isSome := List.mem_filter.2 ⟨hk, rfl⟩
        rw [somes_numbers, List.mem_map] at hk'
        obtain ⟨k', hk', e⟩ := hk'
        cases e
        obtain ⟨e, he, rfl⟩ := List.mem_map.1 hk'
        rw [get_of_mem h2 he] at hi
        exact hid (e.1, i) (List.mem_flatMap.2 ⟨e, he, List.mem_map.2 ⟨i, hi, rfl⟩⟩)
    · refine ((sortKeys_perm _ _).flatMap_right _).trans ?_
      refine List.Perm.trans ?_ (h3.map _)
      refine List.Perm.of_eq ?_
      have key : ∀ (ks : List (Option K)), (ks.flatMap fun k => (getIdsN m k).map fun i => (toStr k, i)) =
          (ks.filter Option.isSome).flatMap fun k => (getIdsN m k).map fun i => (toStr k, i) := by
        intro ks
        induction ks with
        | nil => rfl
        | cons k ks ih =>
          cases k with
          | none => simpa [getIdsN] using ih
          | some k => simp only [List.flatMap_cons, List.filter_cons, Option.isSome_some, if_true, ih]
      rw [key, somes_numbers, List.flatMap_map, List.flatMap_map]
      unfold pairs
      rw [List.map_flatMap]
      refine List.flatMap_congr fun e he => ?_
      rw [getIds_numbers, get_of_mem h2 he, List.map_map]
      rfl

/-! ## Theorems -/

/-- The export has undefined behaviour exactly for the properties with NaN and two different numbers: the values are sorted with an order that is none. -/
theorem nan_ub_iff {toStr : Option K → Str} (htok : ∀ v, IsTok (toStr v)) (le : K → K → Bool) (name : Str) {values : List (Option K)}
    (hn : values.length + 1 < NO_ID) : writePropertyN toStr le values.length name values = .ub ↔ Mixed values := by
  rcases written htok le name hn with ⟨h, e⟩ | ⟨h, l, ps, e, _⟩
  · exact ⟨fun _ => h, fun _ => e⟩
  · rw [e]
    exact ⟨fun e => (nomatch e), fun h' => absurd h' h⟩

/-- Otherwise the elements listed are those whose value is a number: those of NaN are in no line. -/
theorem numbers_listed {toStr : Option K → Str} (htok : ∀ v, IsTok (toStr v)) (le : K → K → Bool) (name : Str) {values : List (Option K)}
    (hn : values.length + 1 < NO_ID) (hm : ¬ Mixed values) :
    ∃ (lines : File) (ps : List (Str × Nat)), writePropertyN toStr le values.length name values = .ok (name :: lines) ∧ readLines lines = some ps ∧
      ps.Perm ((known values).map fun v => (toStr (some v.1), v.2)) ∧ ∀ i, values[i]? = some none → ∀ t, (t, i + 1) ∉ ps := by
  rcases written htok le name hn with ⟨h, _⟩ | ⟨_, l, ps, e, r, p⟩
  · exact absurd h hm
  · refine ⟨l, ps, e, r, p, ?_⟩
    intro i hi t ht
    have := p.mem_iff.1 ht
    obtain ⟨⟨k, j⟩, hk, e⟩ := List.mem_map.1 this
    simp only [Prod.mk.injEq] at e
    unfold known at hk
    obtain ⟨⟨v, j'⟩, hv, e'⟩ := List.mem_filterMap.1 hk
    rw [List.mem_zipIdx_iff_getElem?] at hv
    cases v with
    | none => simp at e'
    | some v =>
      simp only [Option.map_some, Option.some.injEq, Prod.mk.injEq] at e'
      have : j' = i := by omega
      subst this
      simp only at hv
      rw [hi] at hv
      simp at hv

theorem known_length (values : List (Option K)) : (known values).length = (values.filter Option.isSome).length := by
  have : ∀ (l : List (Option K)) n, ((l.zipIdx n).filterMap fun v => v.1.map fun k => (k, v.2 + 1)).length = (l.filter Option.isSome).length := by
    intro l
    induction l with
    | nil => intro n; rfl
    | cons v l ih =>
      intro n
      cases v with
      | none => simpa using ih (n + 1)
      | some v => simpa using ih (n + 1)
  exact this values 0

/-- **C187 holds exactly for the properties without NaN.** -/
theorem all_listed_iff {toStr : Option K → Str} (htok : ∀ v, IsTok (toStr v)) (le : K → K → Bool) (name : Str) {values : List (Option K)}
    (hn : values.length + 1 < NO_ID) : AllListed toStr le name values ↔ none ∉ values := by
  constructor
  · rintro ⟨l, ps, e, r, p⟩ hnone
    rcases written htok le name hn with ⟨_, e'⟩ | ⟨_, l', ps', e', r', p'⟩
    · rw [e] at e'
      exact nomatch e'
    · rw [e] at e'
      cases e'
      rw [r] at r'
      cases r'
      have := p.symm.trans p'
      have hl := this.length_eq
      rw [List.length_map, List.length_map, List.length_zipIdx, known_length] at hl
      have hall := List.length_filter_eq_length_iff.1 hl.symm
      exact absurd (hall none hnone) (by simp)
  · intro hnone
    obtain ⟨l, ps, e, r, p, _⟩ := numbers_listed htok le name hn fun h => hnone h.1
    refine ⟨l, ps, e, r, p.trans (List.Perm.of_eq ?_)⟩
    unfold known
    rw [List.map_filterMap, ← List.filterMap_eq_map]
    refine List.filterMap_congr fun v hv => ?_
    have := List.fst_mem_of_mem_zipIdx hv
    obtain ⟨v, i⟩ := v
    cases v with
    | none => exact absurd this hnone
    | some v => rfl

/-- Without NaN the file is that of the model of numbers. -/
theorem same_without_nan (toStr : Option K → Str) (le : K → K → Bool) (name : Str) (n : Nat) (values : List K) :
    writePropertyN toStr le n name (values.map some) = writeProperty (fun k => toStr (some k)) le n name values := by
  have hpush : ∀ (m : List (K × List Nat)) k i, push (m.map fun e => (some e.1, e.2)) (some k) i = (push m k i).map fun e => (some e.1, e.2) := by
    intro m k i
    induction m with
    | nil => rfl
    | cons e m ih =>
      obtain ⟨k', l⟩ := e
      rw [List.map_cons, push, push, ih]
      by_cases h : k' = k <;> simp [h]
  have hget : ∀ (m : List (K × List Nat)) k, getIds (m.map fun e => (some e.1, e.2)) (some k) = getIds m k := by
    intro m k
    induction m with
    | nil => rfl
    | cons e m ih =>
      obtain ⟨k', l⟩ := e
      rw [List.map_cons, getIds, getIds, ih]
      simp
  have hins : ∀ (ks : List K) k, insertKey (leN le) (some k) (ks.map some) = (insertKey le k ks).map some := by
    intro ks k
    induction ks with
    | nil => rfl
    | cons k' ks ih =>
      rw [List.map_cons, insertKey, insertKey, ih]
      show (if le k k' = true then _ else _) = _
      split <;> rfl
  have hsort : ∀ ks : List K, sortKeys (leN le) (ks.map some) = (sortKeys le ks).map some := by
    intro ks
    induction ks with
    | nil => rfl
    | cons k ks ih =>
      unfold sortKeys at ih ⊢
      rw [List.map_cons, List.foldr_cons, List.foldr_cons, ih, hins]
  have hdist : ∀ (is : List Nat) (m : List (K × List Nat)),
      Res.foldM' (fun m elem => do
        let value ← Res.index (values.map some) elem
        pure (pushN m value (elem + 1))) (m.map fun e => (some e.1, e.2)) is =
      (Res.foldM' (fun m elem => do
        let value ← Res.index values elem
        pure (push m value (elem + 1))) m is).bind fun m => .ok (m.map fun e => (some e.1, e.2)) := by
    intro is
    induction is with
    | nil => intro m; rfl
    | cons i is ih =>
      intro m
      rw [Res.foldM'_cons, Res.foldM'_cons]
      unfold Res.index
      rw [List.getElem?_map]
      cases values[i]? with
      | none => rfl
      | some k =>
        simp only [Option.map_some]
        have := ih (push m k (i + 1))
        rw [← hpush] at this
        exact this
  unfold writePropertyN writeProperty distributionN distribution
  have := hdist (List.range n) []
  rw [List.map_nil] at this
  rw [this]
  cases Res.foldM' (fun m elem => do
        let value ← Res.index values elem
        pure (push m value (elem + 1))) [] (List.range n) with
  | throw => rfl
  | ub => rfl
  | diverge => rfl
  | ok m =>
    show (do
      let ks ← sortN le ((m.map fun e => (some e.1, e.2)).map Prod.fst)
      pure (name :: ks.flatMap fun k => writeChunks (getIdsN (m.map fun e => (some e.1, e.2)) k) (toStr k) CHUNK_SIZE)) = Res.ok (name :: _)
    have hk : (m.map fun e => ((some e.1 : Option K), e.2)).map Prod.fst = (m.map Prod.fst).map some := by simp
    have hu : unsortable ((m.map Prod.fst).map some) = false := by
      unfold unsortable
      simp
    unfold sortN
    rw [hk, hu, hsort]
    simp only [Bool.false_eq_true, if_false, Res.ok_bind, Res.pure_eq]
    unfold distributionLines
    rw [List.flatMap_map]
    simp only [getIdsN, hget]

/-! Tests. -/

/-- The text of a value. -/
def text : Option Int → Str
  | none => cs!"nan"
  | some v => showInt v

/-- A property of three elements, of which the second is not known: it is in no line. -/
theorem one_missing : writePropertyN text (fun a b => decide (a ≤ b)) 3 cs!"p" [some 7, none, some 7] = .ok [cs!"p", cs!"  7  1 3 "] ∧
    writePropertyN text (fun a b => decide (a ≤ b)) 3 cs!"p" [some 7, none, some 2] = .ub := by decide +kernel

example : ¬ Mixed [some 7, none, some (7 : Int)] ∧ Mixed [some 7, none, some (2 : Int)] := by
  refine ⟨?_, by simp, 7, 2, by simp, by simp, by decide⟩
  rintro ⟨-, a, b, ha, hb, hab⟩
  simp at ha hb
  exact hab (by rw [ha, hb])

end Verif.Props.FemNan
