import Verif.Lemmas.MlRegion

/-! Lemmas on the numbers of a region of a `.ml` file that occur any number of times. -/

namespace Verif.Ml

open Verif Res

/-- An increasing list is determined by how often each number occurs in it. -/
theorem sorted_unique {a b : List Nat} (ha : a.Pairwise (· ≤ ·)) (hb : b.Pairwise (· ≤ ·)) (h : ∀ k, a.count k = b.count k) : a = b :=
  List.Perm.eq_of_pairwise (fun x y _ _ h1 h2 => Nat.le_antisymm h1 h2) ha hb (List.perm_iff_count.2 h)

theorem pairUp_sublist : ∀ l : List Nat, ((pairUp l).map Prod.snd).Sublist l
  | [] => by simp [pairUp]
  | [_] => by simp [pairUp]
  | a :: b :: r => by
    rw [pairUp]
    split
    · exact (pairUp_sublist (b :: r)).cons_cons a
    · exact ((pairUp_sublist r).cons_cons b).cons a

theorem last_cons {a b : Nat} {l : List Nat} : (a :: b :: l).getLast? = (b :: l).getLast? := by simp [List.getLast?_cons]

theorem count_gt {x : Nat} {l : List Nat} (h : ∀ y ∈ l, x < y) : l.count x = 0 :=
  List.count_eq_zero.2 fun hx => Nat.lt_irrefl x (h x hx)

/-- How often each number is found internal, and found on the boundary, by the pairs. -/
theorem pairUp_count : ∀ l : List Nat, l.Pairwise (· ≤ ·) → ∀ x : Nat, (pairUp l).count (false, x) = l.count x / 2 ∧
    (pairUp l).count (true, x) = if l.count x % 2 = 1 ∧ l.getLast? ≠ some x then 1 else 0
  | [], _, x => by simp [pairUp]
  | [b], _, x => by
    have h0 : pairUp [b] = [] := rfl
    rw [h0, count_cons']
    by_cases h : b = x <;> simp [h]
  | a :: b :: r, hs, x => by
    have hs1 := List.pairwise_cons.1 hs
    have hs2 := List.pairwise_cons.1 hs1.2
    rw [pairUp]
    split
    · rename_i hab
      obtain ⟨h1, h2⟩ := pairUp_count (b :: r) hs1.2 x
      have hlt : ∀ y ∈ b :: r, a < y := by
        intro y hy
        have hle : a < b := by have := hs1.1 b (by simp); omega
        rcases List.mem_cons.1 hy with rfl | hy
        · exact hle
        · have := hs2.1 y hy; omega
      rw [List.count_cons (a := (false, x)), List.count_cons (a := (true, x)), h1, h2, last_cons, count_cons' x a]
      by_cases hx : a = x
      · have h0 : (b :: r).count x = 0 := count_gt (by rw [← hx]; exact hlt)
        have hl : (b :: r).getLast? ≠ some x := fun h => by
          have := List.mem_of_getLast? h
          have := hlt x this
          omega
        rw [h0]
        simp [hx, hl]
      · simp [hx]
    · rename_i hab
      have hab : a = b := by omega
      subst hab
      obtain ⟨h1, h2⟩ := pairUp_count r hs2.2 x
      rw [List.count_cons (a := (false, x)), List.count_cons (a := (true, x)), h1, h2, count_cons' x a, count_cons' x a]
      by_cases hr : r = []
      · subst hr
        by_cases hx : a = x <;> simp [hx]
      · have hl : (a :: a :: r).getLast? = r.getLast? := by
          cases r with
          | nil => exact absurd rfl hr
          | cons c r => rw [last_cons, last_cons]
        rw [hl]
        by_cases hx : a = x
        · subst hx
          constructor
          · simp
            omega
          · simp only [Prod.mk.injEq, Bool.false_eq_true, beq_iff_eq, if_true]
            have : (r.count a + 1 + 1) % 2 = r.count a % 2 := by omega
            rw [this]
            simp
        · simp [hx]

/-- The last number of an increasing list occurs once when the one before it is different. -/
theorem last_once {l : List Nat} (hs : l.Pairwise (· ≤ ·)) {a b : Nat} (h2 : 2 ≤ l.length) (ha : l[l.length - 2]? = some a) (hb : l[l.length - 1]? = some b) :
    l.getLast? = some b ∧ (a = b ↔ l.count b ≠ 1) ∧ ∀ x ∈ l, x ≤ b := by
  have hl : l.getLast? = some b := by rw [List.getLast?_eq_getElem?]; exact hb
  obtain ⟨i1, e1⟩ := List.getElem?_eq_some_iff.1 ha
  obtain ⟨i2, e2⟩ := List.getElem?_eq_some_iff.1 hb
  have hle : ∀ x ∈ l, x ≤ b := by
    intro x hx
    obtain ⟨i, hi, rfl⟩ := List.getElem_of_mem hx
    rcases Nat.lt_or_ge i (l.length - 1) with h | h
    · rw [← e2]; exact List.pairwise_iff_getElem.1 hs i (l.length - 1) hi i2 h
    · have : i = l.length - 1 := by omega
      subst this
      omega
  refine ⟨hl, ?_, hle⟩
  have hsplit : l = l.take (l.length - 2) ++ [a, b] := by
    have h1 : l.drop (l.length - 2) = [a, b] := by
      rw [List.drop_eq_getElem_cons i1, e1]
      have : l.length - 2 + 1 = l.length - 1 := by omega
      rw [this, List.drop_eq_getElem_cons i2, e2]
      have : l.length - 1 + 1 = l.length := by omega
      rw [this, List.drop_length]
    rw [← h1, List.take_append_drop]
  constructor
  · intro h
    conv_lhs => rw [hsplit]
    rw [List.count_append, h]
    simp
  · intro h
    by_cases hab : a = b
    · exact hab
    · exfalso
      apply h
      conv_lhs => rw [hsplit]
      rw [List.count_append, count_cons', count_cons', if_neg hab, List.count_nil]
      have : (l.take (l.length - 2)).count b = 0 := by
        rw [List.count_eq_zero]
        intro hm
        have hp : (l.take (l.length - 2) ++ [a, b]).Pairwise (· ≤ ·) := by rw [← hsplit]; exact hs
        have h3 := (List.pairwise_append.1 hp).2.2 b hm a (by simp)
        have h4 := hle a (by rw [hsplit]; simp)
        omega
      rw [this]
      simp

end Verif.Ml
