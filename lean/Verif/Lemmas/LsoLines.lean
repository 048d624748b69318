import Mathlib.Data.List.Perm.Subperm
import Mathlib.Data.List.Nodup
import Verif.Model.LsoLines

/-!
# Walking along the border of a surface
-/

namespace Verif.LsoLines

open Res

/-- What the mesh library promises of `next_on_border`: it is a one-to-one map of the border edges, and the next edge starts where the
edge ends. -/
structure NextOk (b : Border) : Prop where
  lt : ∀ i < b.ends.length, b.next i < b.ends.length
  inj : ∀ i < b.ends.length, ∀ j < b.ends.length, b.next i = b.next j → i = j
  meets : ∀ i e f, b.ends[i]? = some e → b.ends[b.next i]? = some f → f.1 = e.2

/-- The edge after `k` steps. -/
def steps (b : Border) : Nat → Nat → Nat
  | 0, i => i
  | k + 1, i => b.next (steps b k i)

theorem steps_succ' (b : Border) (k i : Nat) : steps b (k + 1) i = steps b k (b.next i) := by
  induction k with
  | zero => rfl
  | succ k ih => exact congrArg b.next ih

theorem steps_add (b : Border) (j k i : Nat) : steps b (j + k) i = steps b j (steps b k i) := by
  induction j with
  | zero => rw [Nat.zero_add]; rfl
  | succ j ih => rw [Nat.succ_add]; exact congrArg b.next ih

theorem steps_lt {b : Border} (h : NextOk b) {i : Nat} (hi : i < b.ends.length) : ∀ k, steps b k i < b.ends.length := by
  intro k
  induction k with
  | zero => exact hi
  | succ k ih => exact h.lt _ ih

theorem steps_inj {b : Border} (h : NextOk b) {i j : Nat} (hi : i < b.ends.length) (hj : j < b.ends.length) :
    ∀ k, steps b k i = steps b k j → i = j := by
  intro k
  induction k with
  | zero => exact id
  | succ k ih => exact fun e => ih (h.inj _ (steps_lt h hi k) _ (steps_lt h hj k) e)

/-- The walk comes back to the edge it started from. -/
theorem steps_return {b : Border} (h : NextOk b) {i : Nat} (hi : i < b.ends.length) :
    ∃ k, 0 < k ∧ k ≤ b.ends.length ∧ steps b k i = i := by
  have hn : ¬ ((List.range (b.ends.length + 1)).map fun k => steps b k i).Nodup := by
    intro hn
    have hs : ((List.range (b.ends.length + 1)).map fun k => steps b k i) ⊆ List.range b.ends.length := by
      intro x hx
      obtain ⟨k, _, rfl⟩ := List.mem_map.1 hx
      exact List.mem_range.2 (steps_lt h hi k)
    have := (List.subperm_of_subset hn hs).length_le
    rw [List.length_map, List.length_range, List.length_range] at this
    omega
  have hex : ∃ a c, a < c ∧ c ≤ b.ends.length ∧ steps b a i = steps b c i := by
    by_contra hne
    refine hn (List.Nodup.map_on ?_ List.nodup_range)
    intro a ha c hc e
    rcases Nat.lt_trichotomy a c with hlt | he | hlt
    · exact absurd ⟨a, c, hlt, by have := List.mem_range.1 hc; omega, e⟩ hne
    · exact he
    · exact absurd ⟨c, a, hlt, by have := List.mem_range.1 ha; omega, e.symm⟩ hne
  obtain ⟨a, c, hac, hc, e⟩ := hex
  refine ⟨c - a, by omega, by omega, ?_⟩
  have : steps b c i = steps b a (steps b (c - a) i) := by rw [← steps_add]; congr 1; omega
  rw [this] at e
  exact (steps_inj h hi (steps_lt h hi _) a e).symm

/-- What the loop collects after the edge `i`: the vertices up to the first corner. -/
inductive Run (b : Border) (corners : List Nat) : Nat → List Nat → Prop
  | stop {i : Nat} {e : Nat × Nat} : b.ends[i]? = some e → e.2 ∈ corners → Run b corners i [e.2]
  | go {i : Nat} {e : Nat × Nat} {r : List Nat} : b.ends[i]? = some e → e.2 ∉ corners → Run b corners (b.next i) r → Run b corners i (e.2 :: r)

theorem walk_run {b : Border} (h : NextOk b) {corners : List Nat} : ∀ {n i : Nat} {r : List Nat}, i < b.ends.length →
    walk b corners n i = .ok r → Run b corners i r := by
  intro n
  induction n with
  | zero => intro i r _ hw; cases hw
  | succ n ih =>
    intro i r hi hw
    unfold walk at hw
    obtain ⟨e, he, hw⟩ := Res.bind_eq_ok.1 hw
    have he := Res.index_eq_ok.1 he
    have hm := h.meets i _ _ (List.getElem?_eq_getElem hi) he
    by_cases hc : corners.contains e.1 = true
    · rw [if_pos hc] at hw
      cases hw
      rw [hm]
      exact .stop (List.getElem?_eq_getElem hi) (by rw [← hm]; simpa using hc)
    · rw [if_neg hc] at hw
      obtain ⟨r', hr, hw⟩ := Res.bind_eq_ok.1 hw
      cases hw
      rw [hm]
      exact .go (List.getElem?_eq_getElem hi) (by rw [← hm]; simpa using hc) (ih (h.lt _ hi) hr)

/-- The loop ends when a corner is on the way. -/
theorem walk_ok {b : Border} (h : NextOk b) {corners : List Nat} : ∀ {n i k : Nat} {e : Nat × Nat}, i < b.ends.length → 0 < k → k ≤ n →
    b.ends[steps b k i]? = some e → e.1 ∈ corners → ∃ r, walk b corners n i = .ok r := by
  intro n
  induction n with
  | zero => intro i k e _ h0 hk; omega
  | succ n ih =>
    intro i k e hi h0 hk he hc
    unfold walk
    rw [Res.index_of_lt (h.lt _ hi), Res.ok_bind]
    by_cases hcc : corners.contains (b.ends[b.next i]'(h.lt _ hi)).1 = true
    · rw [if_pos hcc]
      exact ⟨_, rfl⟩
    · rw [if_neg hcc]
      cases k with
      | zero => omega
      | succ k =>
        rw [steps_succ'] at he
        have hk0 : 0 < k := by
          rcases Nat.eq_zero_or_pos k with rfl | hp
          · have : b.ends[b.next i]? = some e := he
            rw [List.getElem?_eq_getElem (h.lt _ hi)] at this
            injection this with this
            exact absurd (by simpa [this] using hc) hcc
          · exact hp
        obtain ⟨r, hr⟩ := ih (h.lt _ hi) hk0 (by omega) he hc
        rw [hr]
        exact ⟨_, rfl⟩

theorem buildLine_ok {b : Border} (h : NextOk b) {corners : List Nat} {i : Nat} {e : Nat × Nat} (he : b.ends[i]? = some e) (hc : e.1 ∈ corners) :
    ∃ r, buildLine b corners i = .ok (e.1 :: r) ∧ Run b corners i r := by
  obtain ⟨hi, _⟩ := List.getElem?_eq_some_iff.1 he
  obtain ⟨k, h0, hk, hr⟩ := steps_return h hi
  obtain ⟨r, hw⟩ := walk_ok (n := b.ends.length) h hi h0 hk (by rw [hr]; exact he) hc
  refine ⟨r, ?_, walk_run h hi hw⟩
  unfold buildLine
  rw [Res.index_eq_ok.2 he, Res.ok_bind, hw]
  rfl

/-! ## Consecutive vertices -/

/-- Three consecutive vertices. -/
def triples : List Nat → List (Nat × Nat × Nat)
  | a :: b :: c :: l => (a, b, c) :: triples (b :: c :: l)
  | _ => []

theorem pairs_cons (a b : Nat) (l : List Nat) : pairs (a :: b :: l) = (a, b) :: pairs (b :: l) := rfl

theorem triples_pairs {a b c : Nat} : ∀ {l : List Nat}, (a, b, c) ∈ triples l → (a, b) ∈ pairs l ∧ (b, c) ∈ pairs l := by
  intro l
  induction l with
  | nil => intro h; cases h
  | cons x l ih =>
    match l with
    | [] => intro h; cases h
    | [y] => intro h; cases h
    | y :: z :: l =>
      intro h
      rcases List.mem_cons.1 h with h | h
      · cases h
        exact ⟨by simp [pairs_cons], by simp [pairs_cons]⟩
      · exact ⟨List.mem_cons_of_mem _ (ih h).1, List.mem_cons_of_mem _ (ih h).2⟩

/-- An edge whose end is not the last vertex is followed by another. -/
theorem pair_before {a b : Nat} {C : List Nat} (hb : b ∉ C) : ∀ {l : List Nat}, (∀ z, l.getLast? = some z → z ∈ C) → (a, b) ∈ pairs l →
    ∃ y, (a, b, y) ∈ triples l := by
  intro l
  induction l with
  | nil => intro _ h; cases h
  | cons x l ih =>
    match l with
    | [] => intro _ h; cases h
    | [y] =>
      intro hl h
      rcases List.mem_cons.1 h with h | h
      · cases h
        exact absurd (hl b rfl) hb
      · cases h
    | y :: z :: l =>
      intro hl h
      rcases List.mem_cons.1 h with h | h
      · cases h
        exact ⟨z, List.mem_cons_self ..⟩
      · obtain ⟨w, hw⟩ := ih (fun v hv => hl v (by rw [List.getLast?_cons_cons]; exact hv)) h
        exact ⟨w, List.mem_cons_of_mem _ hw⟩

/-- An edge whose start is not the first vertex comes after another. -/
theorem pair_after {a b : Nat} {C : List Nat} (hb : b ∉ C) : ∀ {l : List Nat}, (∀ z, l.head? = some z → z ∈ C) → (b, a) ∈ pairs l →
    ∃ x, (x, b, a) ∈ triples l := by
  have key : ∀ {l : List Nat} {w : Nat}, (b, a) ∈ pairs l → ∃ x, (x, b, a) ∈ triples (w :: l) := by
    intro l
    induction l with
    | nil => intro w h; cases h
    | cons x l ih =>
      match l with
      | [] => intro w h; cases h
      | y :: l =>
        intro w h
        rcases List.mem_cons.1 h with h | h
        · cases h
          exact ⟨w, List.mem_cons_self ..⟩
        · obtain ⟨z, hz⟩ := ih (w := x) h
          exact ⟨z, List.mem_cons_of_mem _ hz⟩
  intro l hl h
  match l with
  | [] => cases h
  | [x] => cases h
  | x :: y :: l =>
    rcases List.mem_cons.1 h with h | h
    · cases h
      exact absurd (hl b rfl) hb
    · exact key h

end Verif.LsoLines
