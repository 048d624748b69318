import Verif.Lemmas.LsoLines
import Verif.Lemmas.MlRegion
import Verif.Model.MlLines

/-!
# Line starts and lines of `.ml` files
-/

namespace Verif.MlLines

open Verif.LsoLines Res

theorem exists_least {P : Nat → Prop} (h : ∃ k, P k) : ∃ k, P k ∧ ∀ j < k, ¬ P j := by
  obtain ⟨k, hk⟩ := h
  induction k using Nat.strongRecOn with
  | _ k ih =>
    by_cases hex : ∃ j < k, P j
    · obtain ⟨j, hj, hp⟩ := hex
      exact ih j hj hp
    · exact ⟨k, hk, fun j hj hp => hex ⟨j, hj, hp⟩⟩

/-- The start that an edge gives. -/
def startAt (b : Border) (corners : List Nat) (i : Nat) : List (Nat × Nat) :=
  match b.ends[i]? with
  | some e => if corners.contains e.1 then [e] else []
  | none => []

theorem startOf_ok {b : Border} {corners : List Nat} {i : Nat} (hi : i < b.ends.length) :
    startOf b corners i = .ok (startAt b corners i) := by
  unfold startOf startAt
  rw [Res.index_of_lt hi, List.getElem?_eq_getElem hi]
  rfl

theorem startsFrom_ok {b : Border} (h : NextOk b) (hb : 0 < b.ends.length) {corners : List Nat} {p : Nat} (hp : steps b p 0 = 0)
    (hmin : ∀ j, 0 < j → j < p → steps b j 0 ≠ 0) : ∀ (m n : Nat), m < p → m ≤ n →
    startsFrom b corners (n + 1) (steps b (p - m) 0) = .ok (((List.range' (p - m) m).map fun j => steps b j 0).flatMap (startAt b corners)) := by
  intro m
  induction m with
  | zero =>
    intro n _ _
    unfold startsFrom
    rw [Nat.sub_zero, if_pos hp]
    rfl
  | succ m ih =>
    intro n hm hn
    unfold startsFrom
    rw [if_neg (hmin _ (by omega) (by omega)), startOf_ok (steps_lt h hb _), Res.ok_bind]
    have e : b.next (steps b (p - (m + 1)) 0) = steps b (p - m) 0 := by
      have : p - m = (p - (m + 1)) + 1 := by omega
      rw [this]
      rfl
    cases n with
    | zero => omega
    | succ n =>
      rw [e, ih n (by omega) (by omega), Res.ok_bind, List.range'_succ, List.map_cons, List.flatMap_cons]
      have : p - (m + 1) + 1 = p - m := by omega
      rw [this]
      rfl

/-- The starts written for a surface: those of the edges of the loop of the first border edge, each visited once. -/
theorem surfaceStarts_ok {b : Border} (h : NextOk b) (corners : List Nat) :
    ∃ visited : List Nat, visited.Nodup ∧ (∀ i, i ∈ visited ↔ 0 < b.ends.length ∧ ∃ k, steps b k 0 = i) ∧
      surfaceStarts b corners = .ok (visited.flatMap (startAt b corners)) := by
  unfold surfaceStarts
  by_cases hb : 0 < b.ends.length
  · rw [if_neg (by intro he; rw [List.isEmpty_iff.1 he] at hb; cases hb)]
    obtain ⟨p, ⟨hp0, hpl, hp⟩, hmin⟩ := exists_least (steps_return h hb)
    have hmin : ∀ j, 0 < j → j < p → steps b j 0 ≠ 0 := fun j hj hjp e => hmin j hjp ⟨hj, by omega, e⟩
    refine ⟨(List.range p).map fun j => steps b j 0, ?_, ?_, ?_⟩
    · refine List.Nodup.map_on ?_ List.nodup_range
      have key : ∀ x y, x < y → y < p → steps b x 0 ≠ steps b y 0 := by
        intro x y hxy hy e
        have e2 : steps b y 0 = steps b x (steps b (y - x) 0) := by rw [← steps_add]; congr 1; omega
        rw [e2] at e
        exact hmin (y - x) (by omega) (by omega) (steps_inj h hb (steps_lt h hb _) x e).symm
      intro x hx y hy e
      rcases Nat.lt_trichotomy x y with hlt | he | hlt
      · exact absurd e (key x y hlt (List.mem_range.1 hy))
      · exact he
      · exact absurd e.symm (key y x hlt (List.mem_range.1 hx))
    · intro i
      constructor
      · intro hi
        obtain ⟨k, _, rfl⟩ := List.mem_map.1 hi
        exact ⟨hb, k, rfl⟩
      · rintro ⟨_, k, rfl⟩
        refine List.mem_map.2 ⟨k % p, List.mem_range.2 (Nat.mod_lt _ hp0), ?_⟩
        have hmul : ∀ m, steps b (m * p) 0 = 0 := by
          intro m
          induction m with
          | zero => rw [Nat.zero_mul]; rfl
          | succ m ih => rw [Nat.succ_mul, steps_add, hp, ih]
        have : k = k % p + (k / p) * p := by rw [Nat.mul_comm]; exact (Nat.mod_add_div k p).symm
        conv => rhs; rw [this, steps_add, hmul]
    · rw [startOf_ok hb, Res.ok_bind]
      have hpe : p - (p - 1) = 1 := by omega
      have := startsFrom_ok h hb hp hmin (corners := corners) (p - 1) (b.ends.length - 1) (by omega) (by omega)
      rw [hpe] at this
      have hlen : b.ends.length - 1 + 1 = b.ends.length := by omega
      rw [hlen] at this
      have hone : steps b 1 0 = b.next 0 := rfl
      rw [hone] at this
      rw [this, Res.ok_bind]
      have hr : List.range p = 0 :: List.range' 1 (p - 1) := by
        rw [List.range_eq_range']
        have : p = (p - 1) + 1 := by omega
        conv => lhs; rw [this, List.range'_succ]
      rw [hr]
      rfl
  · have : b.ends = [] := by
      cases he : b.ends with
      | nil => rfl
      | cons e es => rw [he] at hb; simp at hb
    refine ⟨[], List.nodup_nil, ?_, ?_⟩
    · intro i
      simp [hb]
    · rw [this]
      rfl

theorem mem_starts {b : Border} {corners : List Nat} {visited : List Nat} {e : Nat × Nat} :
    e ∈ visited.flatMap (startAt b corners) ↔ ∃ i ∈ visited, b.ends[i]? = some e ∧ e.1 ∈ corners := by
  rw [List.mem_flatMap]
  constructor
  · rintro ⟨i, hi, he⟩
    unfold startAt at he
    split at he
    · rename_i f hf
      split at he
      · rename_i hc
        rw [List.mem_singleton.1 he]
        exact ⟨i, hi, hf, by simpa using hc⟩
      · cases he
    · cases he
  · rintro ⟨i, hi, he, hc⟩
    refine ⟨i, hi, ?_⟩
    unfold startAt
    rw [he]
    simp [hc]

/-! ## Following the border -/

variable {P : Type}

theorem follow_run {s : MSurface P} {b : Border} {corners : List Nat} (hc : ∀ v, (s.corner v).isSome = true ↔ v ∈ corners) :
    ∀ {n i : Nat} {r : List Nat}, follow s b n i = .ok r → Run b corners i r := by
  intro n
  induction n with
  | zero => intro i r h; cases h
  | succ n ih =>
    intro i r h
    unfold follow at h
    obtain ⟨e, he, h⟩ := Res.bind_eq_ok.1 h
    have he := Res.index_eq_ok.1 he
    by_cases hs : (s.corner e.2).isSome = true
    · rw [if_pos hs] at h
      cases h
      exact .stop he ((hc _).1 hs)
    · rw [if_neg hs] at h
      obtain ⟨r', hr, h⟩ := Res.bind_eq_ok.1 h
      cases h
      exact .go he (fun hm => hs ((hc _).2 hm)) (ih hr)

theorem follow_ok {s : MSurface P} {b : Border} (h : NextOk b) : ∀ {n i k : Nat} {e : Nat × Nat}, i < b.ends.length → k < n →
    b.ends[steps b k i]? = some e → (s.corner e.2).isSome = true → ∃ r, follow s b n i = .ok r := by
  intro n
  induction n with
  | zero => intro i k e _ hk; omega
  | succ n ih =>
    intro i k e hi hk he hc
    unfold follow
    rw [Res.index_of_lt hi, Res.ok_bind]
    by_cases hs : (s.corner (b.ends[i]'hi).2).isSome = true
    · rw [if_pos hs]
      exact ⟨_, rfl⟩
    · rw [if_neg hs]
      cases k with
      | zero =>
        have he : b.ends[i]? = some e := he
        rw [List.getElem?_eq_getElem hi] at he
        injection he with he
        rw [he] at hs
        exact absurd hc hs
      | succ k =>
        rw [steps_succ'] at he
        obtain ⟨r, hr⟩ := ih (h.lt _ hi) (by omega : k < n) he hc
        rw [hr]
        exact ⟨_, rfl⟩

/-- From an edge that starts at a corner the loop ends. -/
theorem follow_returns {s : MSurface P} {b : Border} (h : NextOk b) {i : Nat} {e : Nat × Nat} (he : b.ends[i]? = some e)
    (hc : (s.corner e.1).isSome = true) : ∃ r, follow s b b.ends.length i = .ok r := by
  obtain ⟨hi, _⟩ := List.getElem?_eq_some_iff.1 he
  obtain ⟨p, h0, hp, hr⟩ := steps_return h hi
  cases p with
  | zero => omega
  | succ p =>
    have hlt := steps_lt h hi p
    have hm := h.meets _ _ _ (List.getElem?_eq_getElem hlt) (by rw [show b.next (steps b p i) = i from hr]; exact he)
    exact follow_ok h hi (by omega : p < b.ends.length) (List.getElem?_eq_getElem hlt) (by rw [← hm]; exact hc)

/-- A run has the edges up to the next corner. -/
theorem run_covers {b : Border} (h : NextOk b) {corners : List Nat} : ∀ {k s : Nat} {r : List Nat} {e : Nat × Nat}, Run b corners s r →
    b.ends[s]? = some e → (∀ m, 0 < m → m ≤ k → ∀ f, b.ends[steps b m s]? = some f → f.1 ∉ corners) → ∀ {f : Nat × Nat},
    b.ends[steps b k s]? = some f → f ∈ pairs (e.1 :: r) := by
  intro k
  induction k with
  | zero =>
    intro s r e hr he _ f hf
    have hf : b.ends[s]? = some f := hf
    rw [he] at hf
    cases hf
    cases hr with
    | stop h' _ => rw [he] at h'; cases h'; simp [pairs]
    | go h' _ _ => rw [he] at h'; cases h'; simp [pairs]
  | succ k ih =>
    intro s r e hr he hno f hf
    obtain ⟨hs, _⟩ := List.getElem?_eq_some_iff.1 he
    have hg := List.getElem?_eq_getElem (h.lt _ hs)
    have hm := h.meets _ _ _ he hg
    have hnc := hno 1 (by omega) (by omega) _ hg
    cases hr with
    | stop h' hc =>
      rw [he] at h'
      cases h'
      rw [hm] at hnc
      exact absurd hc hnc
    | @go _ e' r' h' hc hr' =>
      rw [he] at h'
      cases h'
      have := ih hr' hg (fun m h0 hmk f hf => hno (m + 1) (by omega) (by omega) f (by rw [steps_succ']; exact hf)) (by rw [← steps_succ']; exact hf)
      rw [hm] at this
      exact List.mem_cons_of_mem _ this

/-- From any edge, going backwards along the border leads to an edge that starts at a corner, if there is one on the loop. -/
theorem corner_before {b : Border} (h : NextOk b) {corners : List Nat} {i : Nat} (hi : i < b.ends.length)
    (hl : ∃ k e, b.ends[steps b k i]? = some e ∧ e.1 ∈ corners) :
    ∃ s k e, steps b k s = i ∧ b.ends[s]? = some e ∧ e.1 ∈ corners ∧ ∀ m, 0 < m → m ≤ k → ∀ f, b.ends[steps b m s]? = some f → f.1 ∉ corners := by
  have hex : ∃ k s e, s < b.ends.length ∧ steps b k s = i ∧ b.ends[s]? = some e ∧ e.1 ∈ corners := by
    obtain ⟨k, e, he, hc⟩ := hl
    obtain ⟨n, hn, _, hr⟩ := steps_return h hi
    have hmul : ∀ m, steps b (m * n) i = i := by
      intro m
      induction m with
      | zero => rw [Nat.zero_mul]; rfl
      | succ m ih => rw [Nat.succ_mul, steps_add, hr, ih]
    have hle : k ≤ k * n := Nat.le_mul_of_pos_right k hn
    refine ⟨k * n - k, steps b k i, e, steps_lt h hi k, ?_, he, hc⟩
    rw [← steps_add, Nat.sub_add_cancel hle]
    exact hmul k
  obtain ⟨k, ⟨s, e, hs, hst, he, hc⟩, hmin⟩ := exists_least hex
  refine ⟨s, k, e, hst, he, hc, ?_⟩
  intro m hm0 hmk f hf hfc
  refine hmin (k - m) (by omega) ⟨steps b m s, f, steps_lt h hs m, ?_, hf, hfc⟩
  rw [← steps_add, Nat.sub_add_cancel hmk]
  exact hst

end Verif.MlLines
