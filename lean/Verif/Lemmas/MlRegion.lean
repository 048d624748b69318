import Verif.Model.Ml
import Mathlib.Data.List.Perm.Subperm
import Mathlib.Data.List.Nodup

/-! Lemmas on the numbers of a region of a `.ml` file: boundary and internal surfaces. -/

namespace Verif.Ml

open Verif

theorem insertSorted_perm (a : Nat) (l : List Nat) : (insertSorted a l).Perm (a :: l) := by
  induction l with
  | nil => exact .refl _
  | cons b l ih =>
    rw [insertSorted]
    split
    · exact .refl _
    · exact (ih.cons b).trans (.swap a b l)

theorem sortNat_perm (l : List Nat) : (sortNat l).Perm l := by
  induction l with
  | nil => exact .refl _
  | cons a l ih => exact (insertSorted_perm a _).trans (ih.cons a)

theorem insertSorted_sorted {a : Nat} {l : List Nat} (h : l.Pairwise (· ≤ ·)) : (insertSorted a l).Pairwise (· ≤ ·) := by
  induction l with
  | nil => simp [insertSorted]
  | cons b l ih =>
    rw [List.pairwise_cons] at h
    rw [insertSorted]
    split
    · rename_i hab
      rw [List.pairwise_cons, List.pairwise_cons]
      refine ⟨?_, h⟩
      intro x hx
      rcases List.mem_cons.1 hx with rfl | hx
      · exact hab
      · exact Nat.le_trans hab (h.1 x hx)
    · rename_i hab
      rw [List.pairwise_cons]
      refine ⟨?_, ih h.2⟩
      intro x hx
      rcases List.mem_cons.1 ((insertSorted_perm a l).subset hx) with rfl | hx
      · omega
      · exact h.1 x hx

theorem sortNat_sorted (l : List Nat) : (sortNat l).Pairwise (· ≤ ·) := by
  induction l with
  | nil => exact List.Pairwise.nil
  | cons a l ih => exact insertSorted_sorted ih

/-- The runs of a sorted list: numbers that occur once and numbers that occur twice. -/
def runs : List Nat → List (Bool × Nat)
  | [] => []
  | [a] => [(true, a)]
  | a :: b :: r => if a ≠ b then (true, a) :: runs (b :: r) else (false, b) :: runs r

/-- What `relations` computes after the sort. -/
def lastRun (l : List Nat) : List (Bool × Nat) :=
  match l.reverse with
  | b :: a :: _ => if a ≠ b then [(true, b)] else []
  | _ => []

theorem lastRun_cons {a b : Nat} {l : List Nat} (h : 2 ≤ (b :: l).length) : lastRun (a :: b :: l) = lastRun (b :: l) := by
  unfold lastRun
  rw [List.reverse_cons]
  have hl : 2 ≤ (b :: l).reverse.length := by simpa using h
  generalize (b :: l).reverse = r at hl ⊢
  match r, hl with
  | x :: y :: r, _ => rfl

theorem pairUp_lastRun : ∀ (l : List Nat), l.Pairwise (· ≤ ·) → (∀ a, l.count a ≤ 2) → 2 ≤ l.length → pairUp l ++ lastRun l = runs l
  | [], _, _, h => by simp at h
  | [_], _, _, h => by simp at h
  | a :: b :: r, hs, hc, _ => by
    rw [pairUp, runs]
    have hs' := (List.pairwise_cons.1 hs).2
    split
    · rename_i hab
      cases r with
      | nil => simp [pairUp, lastRun, runs, hab]
      | cons c r =>
        rw [lastRun_cons (by simp), List.cons_append]
        rw [pairUp_lastRun (b :: c :: r) hs' (fun x => Nat.le_trans List.count_le_count_cons (hc x)) (by simp)]
    · rename_i hab
      simp only [ne_eq, Decidable.not_not] at hab
      subst hab
      have hs2 := (List.pairwise_cons.1 hs').2
      have hc2 : ∀ x, r.count x ≤ 2 := fun x => Nat.le_trans (Nat.le_trans List.count_le_count_cons List.count_le_count_cons) (hc x)
      cases r with
      | nil => simp [pairUp, lastRun, runs]
      | cons c r =>
        rw [lastRun_cons (by simp)]
        cases r with
        | nil =>
          have hne : a ≠ c := by
            intro e
            subst e
            have := hc a
            simp at this
          simp [pairUp, lastRun, runs, hne]
        | cons d r =>
          rw [lastRun_cons (by simp), List.cons_append]
          rw [pairUp_lastRun (c :: d :: r) hs2 hc2 (by simp)]

theorem relations_runs {l : List Nat} (hc : ∀ a, l.count a ≤ 2) (h : 2 ≤ l.length) : relations l = .ok (runs (sortNat l)) := by
  have hp := sortNat_perm l
  have hl : 2 ≤ (sortNat l).length := by rw [hp.length_eq]; exact h
  unfold relations
  simp only []
  rw [if_neg (by omega), ← pairUp_lastRun _ (sortNat_sorted l) (fun a => by rw [hp.count_eq]; exact hc a) hl]
  have key : ∀ s : List Nat, 2 ≤ s.length → ∃ a b, Res.index s (s.length - 2) = .ok a ∧ Res.index s (s.length - 1) = .ok b
      ∧ lastRun s = (if a ≠ b then [(true, b)] else []) := by
    intro s hl
    obtain ⟨r, rfl⟩ : ∃ r, s = r.reverse := ⟨s.reverse, by simp⟩
    unfold lastRun
    rw [List.reverse_reverse]
    match r, hl with
    | b :: a :: r, _ =>
      refine ⟨a, b, ?_, ?_, rfl⟩
      · rw [Res.index_eq_ok]; simp
      · rw [Res.index_eq_ok]; simp
  obtain ⟨a, b, ha, hb, e⟩ := key _ hl
  rw [ha, hb, e]
  rfl

theorem mem_runs : ∀ (l : List Nat) (k : Bool) (a : Nat), (k, a) ∈ runs l → a ∈ l
  | [], _, _, h => by simp [runs] at h
  | [b], _, _, h => by simp [runs] at h; simp [h]
  | b :: c :: r, k, a, h => by
    rw [runs] at h
    split at h
    · rcases List.mem_cons.1 h with h | h
      · simp at h; simp [h.2]
      · exact List.mem_cons_of_mem _ (mem_runs (c :: r) k a h)
    · rcases List.mem_cons.1 h with h | h
      · simp at h; simp [h.2]
      · exact List.mem_cons_of_mem _ (List.mem_cons_of_mem _ (mem_runs r k a h))

theorem count_cons' (a b : Nat) (l : List Nat) : (b :: l).count a = l.count a + if b = a then 1 else 0 := by
  rw [List.count_cons]
  simp

/-- A number is a boundary when it occurs once, and internal when it occurs twice. -/
theorem runs_count : ∀ (l : List Nat), l.Pairwise (· ≤ ·) → (∀ a, l.count a ≤ 2) → ∀ (k : Bool) (a : Nat),
    (k, a) ∈ runs l ↔ l.count a = if k then 1 else 2
  | [], _, _, k, a => by cases k <;> simp [runs]
  | [b], _, _, k, a => by
    rw [runs, count_cons']
    by_cases h : b = a
    · subst h; cases k <;> simp
    · cases k <;> simp [h] <;> omega
  | b :: c :: r, hs, hc, k, a => by
    have hs1 := List.pairwise_cons.1 hs
    have hs2 := List.pairwise_cons.1 hs1.2
    rw [runs]
    split
    · rename_i hbc
      have hlt : b < c := by have := hs1.1 c (by simp); omega
      have hb : ∀ x ∈ c :: r, x ≠ b := by
        intro x hx e
        subst e
        rcases List.mem_cons.1 hx with h | h
        · omega
        · have := hs2.1 _ h; omega
      have ih := runs_count (c :: r) hs1.2 (fun x => Nat.le_trans List.count_le_count_cons (hc x)) k a
      rw [List.mem_cons, ih, count_cons' a b]
      by_cases h : b = a
      · subst h
        have h0 : (c :: r).count b = 0 := by
          rw [List.count_eq_zero]
          intro hm
          exact hb _ hm rfl
        rw [h0]
        cases k <;> simp
      · rw [if_neg h, Nat.add_zero]
        constructor
        · rintro (e | e)
          · exact absurd (congrArg Prod.snd e).symm h
          · exact e
        · exact Or.inr
    · rename_i hbc
      simp only [ne_eq, Decidable.not_not] at hbc
      subst hbc
      have h0 : r.count b = 0 := by
        have := hc b
        rw [count_cons', count_cons'] at this
        simp at this
        omega
      have ih := runs_count r hs2.2 (fun x => Nat.le_trans (Nat.le_trans List.count_le_count_cons List.count_le_count_cons) (hc x)) k a
      rw [List.mem_cons, ih, count_cons' a b, count_cons' a b]
      by_cases h : b = a
      · subst h
        rw [h0]
        cases k <;> simp
      · rw [if_neg h]
        constructor
        · rintro (e | e)
          · exact absurd (congrArg Prod.snd e).symm h
          · simpa using e
        · intro e; exact Or.inr (by simpa using e)

theorem runs_nodup : ∀ (l : List Nat), l.Pairwise (· ≤ ·) → (∀ a, l.count a ≤ 2) → ((runs l).map Prod.snd).Nodup
  | [], _, _ => by simp [runs]
  | [b], _, _ => by simp [runs]
  | b :: c :: r, hs, hc => by
    have hs1 := List.pairwise_cons.1 hs
    have hs2 := List.pairwise_cons.1 hs1.2
    rw [runs]
    split
    · rename_i hbc
      rw [List.map_cons, List.nodup_cons]
      refine ⟨?_, runs_nodup _ hs1.2 (fun x => Nat.le_trans List.count_le_count_cons (hc x))⟩
      intro hm
      obtain ⟨⟨k, a⟩, hm', e⟩ := List.mem_map.1 hm
      have hlt : b < c := by have := hs1.1 c (by simp); omega
      have := mem_runs _ _ _ hm'
      dsimp only at e
      subst e
      rcases List.mem_cons.1 this with h | h
      · omega
      · have := hs2.1 _ h; omega
    · rename_i hbc
      simp only [ne_eq, Decidable.not_not] at hbc
      subst hbc
      rw [List.map_cons, List.nodup_cons]
      refine ⟨?_, runs_nodup _ hs2.2 (fun x => Nat.le_trans (Nat.le_trans List.count_le_count_cons List.count_le_count_cons) (hc x))⟩
      intro hm
      obtain ⟨⟨k, a⟩, hm, e⟩ := List.mem_map.1 hm
      have := mem_runs _ _ _ hm
      dsimp only at e
      subst e
      have h1 : 0 < r.count a := List.count_pos_iff.2 this
      have h2 := hc a
      rw [count_cons', count_cons'] at h2
      simp at h2
      omega

theorem runs_side {l : List Nat} (hs : l.Pairwise (· ≤ ·)) (hc : ∀ a, l.count a ≤ 2) (k : Bool) (want : List Nat) (hn : want.Nodup)
    (h : ∀ a, a ∈ want ↔ l.count a = if k then 1 else 2) :
    (((runs l).filter fun r => r.1 = k).map Prod.snd).Perm want := by
  rw [List.perm_ext_iff_of_nodup ?_ hn]
  · intro a
    rw [h, ← runs_count l hs hc]
    simp only [List.mem_map, List.mem_filter, decide_eq_true_eq]
    constructor
    · rintro ⟨⟨k', b⟩, ⟨hm, hk⟩, hb⟩
      simp only at hk hb
      subst hk; subst hb
      exact hm
    · intro hm
      exact ⟨(k, a), ⟨hm, rfl⟩, rfl⟩
  · exact (runs_nodup l hs hc).sublist (List.Sublist.map _ List.filter_sublist)

theorem count_of_nodup {l : List Nat} (h : l.Nodup) (a : Nat) : l.count a = if a ∈ l then 1 else 0 := by
  split
  · rename_i hm; exact List.count_eq_one_of_mem h hm
  · rename_i hm; exact List.count_eq_zero.2 hm

/-- The relations of a block whose numbers are those of boundaries, once, and those of internal surfaces, twice. -/
theorem relations_regions {bs is numbers : List Nat} (hn : (bs ++ is).Nodup) (hp : numbers.Perm (bs ++ (is ++ is)))
    (hl : 2 ≤ bs.length + 2 * is.length) :
    ∃ rel, relations numbers = .ok rel ∧ ((rel.filter fun r => r.1).map Prod.snd).Perm bs
      ∧ ((rel.filter fun r => !r.1).map Prod.snd).Perm is := by
  have hb := (List.nodup_append.1 hn).1
  have hi := (List.nodup_append.1 hn).2.1
  have hd := (List.nodup_append.1 hn).2.2
  have hcount : ∀ a, numbers.count a = (if a ∈ bs then 1 else 0) + 2 * (if a ∈ is then 1 else 0) := by
    intro a
    rw [hp.count_eq, List.count_append, List.count_append, count_of_nodup hb, count_of_nodup hi]
    omega
  have hdis : ∀ a, a ∈ bs → a ∈ is → False := fun a h1 h2 => hd a h1 a h2 rfl
  have hc : ∀ a, numbers.count a ≤ 2 := by
    intro a
    rw [hcount]
    by_cases h1 : a ∈ bs
    · by_cases h2 : a ∈ is
      · exact (hdis a h1 h2).elim
      · simp [h1, h2]
    · by_cases h2 : a ∈ is <;> simp [h1, h2]
  have hlen : 2 ≤ numbers.length := by
    rw [hp.length_eq]; simp; omega
  have hsc : ∀ a, (sortNat numbers).count a = (if a ∈ bs then 1 else 0) + 2 * (if a ∈ is then 1 else 0) := by
    intro a
    rw [(sortNat_perm numbers).count_eq, hcount]
  have hsc2 : ∀ a, (sortNat numbers).count a ≤ 2 := fun a => by rw [(sortNat_perm numbers).count_eq]; exact hc a
  refine ⟨_, relations_runs hc hlen, ?_, ?_⟩
  · have := runs_side (sortNat_sorted numbers) hsc2 true bs hb ?_
    · simpa using this
    · intro a
      rw [hsc]
      by_cases h1 : a ∈ bs
      · by_cases h2 : a ∈ is
        · exact (hdis a h1 h2).elim
        · simp [h1, h2]
      · by_cases h2 : a ∈ is <;> simp [h1, h2]
  · have := runs_side (sortNat_sorted numbers) hsc2 false is hi ?_
    · simpa using this
    · intro a
      rw [hsc]
      by_cases h1 : a ∈ bs
      · by_cases h2 : a ∈ is
        · exact (hdis a h1 h2).elim
        · simp [h1, h2]
      · by_cases h2 : a ∈ is <;> simp [h1, h2]

end Verif.Ml
