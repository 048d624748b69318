import Verif.Props.MlOutcomes
import Verif.Lemmas.MlLists

/-!
# Numbers of the components of `.ml` files

Each `TFACE` and `REGION` record of a `.ml` file starts with a number, and the lists of surfaces and blocks refer to these numbers.
-/

namespace Verif.Props.MlAnyNumbers

open Verif Verif.Gocad Verif.GocadMesh Verif.Ml Res

variable {D : Type} [Num D]

/-- The records of components that have a number. -/
def numbered : List Str := [cs!"TFACE", cs!"REGION"]

/-- The second line is the first one, or the same record with another number. -/
def Renumbered (l l' : Str) : Prop :=
  l = l' ∨ ∃ kw ∈ numbered, ∃ (n n' : Nat) (ws : List Str), (∀ w ∈ ws, IsTok w) ∧ l = kw ++ spaced (showNat n :: ws) ∧ l' = kw ++ spaced (showNat n' :: ws)

/-- A `.ml` file with its components. -/
def file (name : Option Str) (components rest : File) : File := [cs!"GOCAD Model3d 1"] ++ writeHeader name ++ writeCrs {} ++ components ++ rest

theorem numbered_split {kw : Str} (h : kw ∈ numbered) (n : Nat) {ws : List Str} (hw : ∀ w ∈ ws, IsTok w) : split (kw ++ spaced (showNat n :: ws)) = kw :: showNat n :: ws := by
  refine split_kw_spaced ?_ ?_
  · simp only [numbered, List.mem_cons, List.not_mem_nil, or_false] at h
    rcases h with rfl | rfl <;> decide
  · intro t ht
    rcases List.mem_cons.1 ht with rfl | ht
    · exact isTok_showNat _
    · exact hw t ht

theorem starts {kw : Str} (hk : kw ∈ numbered) (n : Nat) (ws : List Str) : startsWith (kw ++ spaced (showNat n :: ws)) cs!"END" = false := by
  simp only [numbered, List.mem_cons, List.not_mem_nil, or_false] at hk
  rcases hk with rfl | rfl <;> rfl

/-- The number of a record is not read, wherever the record is. -/
theorem step_renumbered {l l' : Str} (h : Renumbered l l') (s : RState × Mode) : step s l = step s l' := by
  obtain ⟨st, mode⟩ := s
  rcases h with rfl | ⟨kw, hk, n, n', ws, hw, rfl, rfl⟩
  · rfl
  · have e := numbered_split hk n hw
    have e' := numbered_split hk n' hw
    simp only [numbered, List.mem_cons, List.not_mem_nil, or_false] at hk
    cases mode <;> simp only [step, topLine, e, e'] <;> rcases hk with rfl | rfl <;> rfl

theorem readLines_renumbered (rest : File) {f g : File} (h : List.Forall₂ Renumbered f g) (hE : ∀ l ∈ f, startsWith l cs!"END" = false) :
    ∀ s, readLines s (f ++ rest) = readLines s (g ++ rest) := by
  induction h with
  | nil => exact fun _ => rfl
  | @cons l l' f g h _ ih =>
    rintro ⟨st, mode⟩
    have h1 : startsWith l cs!"END" = false := hE l (by simp)
    have h2 : startsWith l' cs!"END" = false := by
      rcases h with rfl | ⟨kw, hk, n, n', ws, hw, rfl, rfl⟩
      · exact h1
      · exact starts hk _ _
    rw [List.cons_append, List.cons_append, readLines, readLines, h1, h2, step_renumbered h]
    simp only [Bool.false_eq_true, and_false, if_false]
    congr 1
    funext s
    exact ih (fun l hl => hE l (by simp [hl])) s

/-- The numbers of the surfaces and regions of a `.ml` file are not read: with others the file loads as the same model, although its lists refer to them. -/
theorem component_numbers_ignored {name : Option Str} (hn : ∀ n, name = some n → GoodObjectName n) {f g : File} (h : List.Forall₂ Renumbered f g)
    (hE : ∀ l ∈ f, startsWith l cs!"END" = false) (rest : File) : loadMl (D := D) (file name f rest) = loadMl (file name g rest) := by
  have e : ∀ f : File, file name f rest = cs!"GOCAD Model3d 1" :: (writeHeader name ++ (writeCrs {} ++ (f ++ rest))) := fun f => by simp [file]
  unfold loadMl
  rw [e, e, gotoKeyword_here (by rfl), gotoKeyword_here (by rfl)]
  simp only [Res.ok_bind]
  rw [readHeader_good hn, readHeader_good hn]
  simp only [Res.ok_bind]
  rw [readCrs_default, readCrs_default]
  simp only [Res.ok_bind]
  rw [readLines_renumbered rest h hE]

/-! ## The property -/

/-- The surfaces of one horizon. -/
def faces (num : Nat → Nat) (j n : Nat) : File := (List.range' j n).map fun i => cs!"TFACE" ++ spaced [showNat (num i), cs!"top", cs!"h"]

/-- `k` surfaces of one horizon with the given numbers, and a region between two of them. -/
def horizon (num : Nat → Nat) (k a b : Nat) : File :=
  [cs!"TSURF h"] ++ faces num 0 k ++ [cs!"REGION 90 Universe", cs!"  0", cs!"REGION 91 r", spaced [signed true (num a), signed false (num b), cs!"0"]]

/-- The state of the reader after `i` surfaces. -/
def after (i : Nat) : RState where
  tsurfs := [{ name := cs!"h", feature := if i = 0 then [] else cs!"top", tfaces := List.range i }]
  names := [(cs!"h", 0)]
  surfaces := List.replicate i cs!"h"

theorem read_faces (num : Nat → Nat) (rest : File) : ∀ n j, readLines (after j, .top) (faces num j n ++ rest) = readLines (after (j + n), .top) rest
  | 0, j => rfl
  | n + 1, j => by
    have h : faces num j (n + 1) ++ rest = (cs!"TFACE" ++ spaced [showNat (num j), cs!"top", cs!"h"]) :: (faces num (j + 1) n ++ rest) := rfl
    have hs : split (cs!"TFACE" ++ spaced [showNat (num j), cs!"top", cs!"h"]) = [cs!"TFACE", showNat (num j), cs!"top", cs!"h"] :=
      numbered_split (by decide) _ (by intro w hw; simp at hw; rcases hw with rfl | rfl <;> decide)
    rw [h, readLines, if_neg (by rintro ⟨-, h⟩; cases h)]
    have hstep : step (after j, .top) (cs!"TFACE" ++ spaced [showNat (num j), cs!"top", cs!"h"]) = .ok (after (j + 1), .top) := by
      rw [step, topLine, hs]
      simp only
      rw [if_neg (by decide), if_pos trivial]
      have : readTfaceKeyword (after j) [showNat (num j), cs!"top", cs!"h"] = .ok (after (j + 1)) := by
        unfold readTfaceKeyword
        simp only [Res.index_cons_succ, Res.index_cons_zero, Res.ok_bind]
        have hk : atKey (after j).names (readName ([showNat (num j), cs!"top", cs!"h"].drop 2)) = .ok 0 := rfl
        rw [hk]
        simp only [Res.ok_bind, after, Res.index_cons_zero, Res.pure_eq]
        simp only [List.drop_succ_cons, List.drop_zero, List.length_replicate, List.set_cons_zero, List.range_succ, List.replicate_succ', Nat.succ_ne_zero, if_false]
        rfl
      rw [this]
      rfl
    rw [hstep, Res.ok_bind, read_faces num rest n (j + 1)]
    congr 3
    omega

/-- What the region is read as: the surfaces are those of which the rank, not the number, is in the list. -/
theorem horizon_read {num : Nat → Nat} {k a b : Nat} (ha : 0 < num a ∧ num a < 2147483648) (hb : 0 < num b ∧ num b < 2147483648) (hab : num a ≠ num b) (rest : File) :
    readLines ({}, .top) (horizon num k a b ++ cs!"END" :: rest) =
      if num a ≤ k ∧ num b ≤ k then .ok ({ after k with blocks := [⟨cs!"r", sortNat [num a - 1, num b - 1], []⟩] }, rest) else .ub := by
  have e : horizon num k a b ++ cs!"END" :: rest = cs!"TSURF h" :: (faces num 0 k ++ (cs!"REGION 90 Universe" :: cs!"  0" :: cs!"REGION 91 r" ::
      spaced [signed true (num a), signed false (num b), cs!"0"] :: cs!"END" :: rest)) := by simp [horizon]
  have h0 : step ({}, .top) cs!"TSURF h" = .ok (after 0, .top) := by decide +kernel
  rw [e, readLines, if_neg (by rintro ⟨-, h⟩; cases h), h0, Res.ok_bind, read_faces, Nat.zero_add]
  have h1 : step (after k, .top) cs!"REGION 90 Universe" = .ok (after k, .outside) := rfl
  have h2 : step (after k, .outside) cs!"  0" = .ok (after k, .top) := rfl
  have h3 : step (after k, .top) cs!"REGION 91 r" = .ok (after k, .block cs!"r" []) := rfl
  rw [readLines, if_neg (by rintro ⟨-, h⟩; cases h), h1, Res.ok_bind, readLines, if_neg (by rintro ⟨h, -⟩; cases h), h2, Res.ok_bind, readLines,
    if_neg (by rintro ⟨-, h⟩; cases h), h3, Res.ok_bind, readLines, if_neg (by rintro ⟨h, -⟩; cases h)]
  have hsplit : split (spaced [signed true (num a), signed false (num b), cs!"0"]) = [signed true (num a), signed false (num b), cs!"0"] :=
    split_spaced (by intro t ht; simp at ht; rcases ht with rfl | rfl | rfl; exacts [isTok_signed _ _, isTok_signed _ _, by decide])
  have hz : surfaceToken cs!"0" = .ok none := by decide
  have hu : untilZero surfaceToken [] [signed true (num a), signed false (num b), cs!"0"] = .ok ([num a - 1, num b - 1], true) := by
    simp only [untilZero, surfaceToken_signed ha.1 ha.2, surfaceToken_signed hb.1 hb.2, Res.ok_bind, hz]
    rfl
  simp only [step, hsplit, hu, Res.ok_bind, if_true]
  have hrel : relations [num a - 1, num b - 1] = .ok ((sortNat [num a - 1, num b - 1]).map fun n => (true, n)) := by
    have hne : num a - 1 ≠ num b - 1 := by omega
    by_cases hle : num a - 1 ≤ num b - 1
    · simp [relations, sortNat, insertSorted, hle, pairUp, hne, Res.index]
    · have hne' : num b - 1 ≠ num a - 1 := by omega
      simp [relations, sortNat, insertSorted, hle, pairUp, hne', Res.index]
  have hidx : ∀ n, Res.index (after k).surfaces n = if n < k then .ok cs!"h" else .ub := fun n => by
    simp only [Res.index, after, List.getElem?_replicate]
    by_cases h : n < k <;> simp [h]
  have hpair : ∀ x y : Nat, Res.mapM' (fun r : Bool × Nat => Res.index (after k).surfaces r.2) [(true, x), (true, y)] = if x < k ∧ y < k then .ok [cs!"h", cs!"h"] else .ub := fun x y => by
    simp only [Res.mapM'_cons, Res.mapM'_nil, hidx]
    by_cases h1 : x < k
    · by_cases h2 : y < k
      · simp [h1, h2]
      · simp [h1, h2]
    · simp [h1]
  unfold closeBlock
  rw [hrel]
  simp only [Res.ok_bind]
  have hc : (num a ≤ k ∧ num b ≤ k) ↔ num a - 1 < k ∧ num b - 1 < k := by omega
  by_cases hle : num a - 1 ≤ num b - 1
  · have hs : sortNat [num a - 1, num b - 1] = [num a - 1, num b - 1] := by simp [sortNat, insertSorted, hle]
    simp only [hs, List.map_cons, List.map_nil, hpair, hc]
    by_cases h : num a - 1 < k ∧ num b - 1 < k
    · simp only [if_pos h, Res.ok_bind]
      rfl
    · simp only [if_neg h]
      rfl
  · have hs : sortNat [num a - 1, num b - 1] = [num b - 1, num a - 1] := by simp [sortNat, insertSorted, hle]
    simp only [hs, List.map_cons, List.map_nil, hpair, hc, and_comm (a := num a - 1 < k)]
    by_cases h : num b - 1 < k ∧ num a - 1 < k
    · simp only [if_pos h, Res.ok_bind]
      rfl
    · simp only [if_neg h]
      rfl

/-- The region is bounded by the surfaces `a` and `b`. -/
def Right (num : Nat → Nat) (k a b : Nat) : Prop :=
  ∃ st : RState, readLines ({}, .top) (horizon num k a b ++ [cs!"END"]) = .ok (st, []) ∧ st.blocks.map (fun r => r.name) = [cs!"r"] ∧
    ∀ r ∈ st.blocks, r.internals = [] ∧ ∀ i, i ∈ r.boundaries ↔ i = a ∨ i = b

/-- **The property** for one region: it is between the surfaces that have the numbers of its list, whichever the numbers are. -/
def AnyComponentNumbers : Prop := ∀ (num : Nat → Nat) (k a b : Nat), (∀ i, i < k → 0 < num i ∧ num i < 2147483648) → (∀ i j, i < k → j < k → num i = num j → i = j) →
  a < k → b < k → a ≠ b → Right num k a b

/-- Exactly the regions whose surfaces have their ranks as numbers, or the ranks of each other, are right. -/
theorem region_numbers_iff {num : Nat → Nat} {k a b : Nat} (hn : ∀ i, i < k → 0 < num i ∧ num i < 2147483648) (hi : ∀ i j, i < k → j < k → num i = num j → i = j)
    (ha : a < k) (hb : b < k) (hab : a ≠ b) : Right num k a b ↔ (num a = a + 1 ∧ num b = b + 1) ∨ (num a = b + 1 ∧ num b = a + 1) := by
  have hne : num a ≠ num b := fun h => hab (hi a b ha hb h)
  have hna := hn a ha
  have hnb := hn b hb
  have hmem : ∀ n, n ∈ sortNat [num a - 1, num b - 1] ↔ n = num a - 1 ∨ n = num b - 1 := fun n => by
    by_cases hle : num a - 1 ≤ num b - 1
    · simp [sortNat, insertSorted, hle]
    · simp [sortNat, insertSorted, hle, or_comm]
  unfold Right
  rw [horizon_read hna hnb hne]
  constructor
  · rintro ⟨st, h, -, hr⟩
    split at h
    · cases h
      obtain ⟨-, hr⟩ := hr _ (List.mem_singleton.2 rfl)
      have h1 := (hr (num a - 1)).1 ((hmem _).2 (Or.inl rfl))
      have h2 := (hr (num b - 1)).1 ((hmem _).2 (Or.inr rfl))
      omega
    · cases h
  · intro h
    rw [if_pos (by omega)]
    refine ⟨_, rfl, rfl, fun r hr => ?_⟩
    rw [List.mem_singleton] at hr
    subst hr
    refine ⟨rfl, fun i => ?_⟩
    rw [hmem]
    omega

/-- What holds: surfaces numbered by their ranks from 1 on. -/
theorem component_numbers_partial {k a b : Nat} (hk : k < 2147483648) (ha : a < k) (hb : b < k) (hab : a ≠ b) : Right (· + 1) k a b :=
  (region_numbers_iff (fun i hi => ⟨Nat.succ_pos _, by show i + 1 < _; omega⟩) (fun i j _ _ h => by simpa using h) ha hb hab).2 (Or.inl ⟨rfl, rfl⟩)

/-- The numbers 2, 1 and 3. -/
def swapped (i : Nat) : Nat := if i = 0 then 2 else if i = 1 then 1 else i + 1

theorem not_anyComponentNumbers : ¬ AnyComponentNumbers := by
  intro h
  have hn : ∀ i, i < 3 → 0 < swapped i ∧ swapped i < 2147483648 := by decide
  have hi : ∀ i, i < 3 → ∀ j, j < 3 → swapped i = swapped j → i = j := by decide
  have h := h swapped 3 0 2 hn (fun i j a b => hi i a j b) (by decide) (by decide) (by decide)
  exact absurd ((region_numbers_iff hn (fun i j a b => hi i a j b) (by decide) (by decide) (by decide)).1 h) (by decide)

/-- Test on one file: the region is put between the wrong surfaces, without a report. -/
theorem swapped_wrong : (readLines ({}, .top) (horizon swapped 3 0 2 ++ [cs!"END"])).bind (fun r => .ok (r.1.blocks.map fun b => b.boundaries)) = .ok [[1, 2]] := by decide +kernel

/-! Non-vacuity. -/

example : horizon swapped 3 0 2 = [cs!"TSURF h", cs!"TFACE 2 top h", cs!"TFACE 1 top h", cs!"TFACE 3 top h", cs!"REGION 90 Universe", cs!"  0", cs!"REGION 91 r", cs!" +2 -3 0"] := by
  decide +kernel

example : Renumbered cs!"TFACE 2 top h" cs!"TFACE 7 top h" := Or.inr ⟨cs!"TFACE", by decide, 2, 7, [cs!"top", cs!"h"], by decide, by decide, by decide⟩

end Verif.Props.MlAnyNumbers
