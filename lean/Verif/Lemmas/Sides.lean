import Verif.Model.Sides

/-! Lemmas on maps filled by `emplace`, on the pairing of surfaces and on the propagation of signs. -/

namespace Verif.Sides

open Verif

section Map
variable {K V : Type} [DecidableEq K]

theorem find_append (m m' : List (K × V)) (k : K) : find (m ++ m') k = (find m k).or (find m' k) := by
  induction m with
  | nil => simp [find]
  | cons e m ih =>
    obtain ⟨k', v⟩ := e
    simp only [List.cons_append, find]
    by_cases h : k' = k <;> simp [h, ih]

theorem find_isSome (m : List (K × V)) (k : K) : (find m k).isSome = m.any (fun e => e.1 = k) := by
  induction m with
  | nil => simp [find]
  | cons e m ih =>
    obtain ⟨k', v⟩ := e
    simp only [find, List.any_cons]
    by_cases h : k' = k <;> simp [h, ih]

theorem find_mem {m : List (K × V)} {k : K} {v : V} (h : find m k = some v) : (k, v) ∈ m := by
  induction m with
  | nil => simp [find] at h
  | cons e m ih =>
    obtain ⟨k', v'⟩ := e
    simp only [find] at h
    by_cases hk : k' = k
    · rw [if_pos hk] at h
      obtain rfl := Option.some.inj h
      subst hk
      exact List.mem_cons_self
    · rw [if_neg hk] at h
      exact List.mem_cons_of_mem _ (ih h)

theorem find_of_mem {m : List (K × V)} {k : K} {v : V} (h : (k, v) ∈ m) (hu : ∀ v', (k, v') ∈ m → v' = v) : find m k = some v := by
  have : (find m k).isSome = true := by
    rw [find_isSome]
    exact List.any_eq_true.2 ⟨_, h, by simp⟩
  obtain ⟨v', hv⟩ := Option.isSome_iff_exists.1 this
  rw [hv, hu v' (find_mem hv)]

theorem find_none {m : List (K × V)} {k : K} (h : ∀ v, (k, v) ∉ m) : find m k = none := by
  cases hf : find m k with
  | none => rfl
  | some v => exact absurd (find_mem hf) (h v)

theorem find_emplace (m : List (K × V)) (k : K) (v : V) (k' : K) :
    find (emplace m k v) k' = (find m k').or (if k = k' then some v else none) := by
  unfold emplace
  split
  · next h =>
    by_cases hk : k = k'
    · subst hk
      rw [← find_isSome] at h
      obtain ⟨w, hw⟩ := Option.isSome_iff_exists.1 h
      rw [hw]; simp
    · simp [hk]
  · rw [find_append]; simp [find]

theorem find_foldl {A : Type} (f : A → K × V) (l : List A) (m : List (K × V)) (k : K) :
    find (l.foldl (fun m a => emplace m (f a).1 (f a).2) m) k = (find m k).or (find (l.map f) k) := by
  induction l generalizing m with
  | nil => simp [find]
  | cons a l ih =>
    rw [List.foldl_cons, ih, find_emplace, List.map_cons, Option.or_assoc]
    congr 1
    simp only [find]
    by_cases h : (f a).1 = k <;> simp [h]

end Map

/-- The directions of a line: the first one found for each surface. -/
theorem find_directEdges (found : List (Nat × Bool)) (a : Nat) : find (directEdges found) a = find found a := by
  unfold directEdges
  have := find_foldl (fun e : Nat × Bool => e) found [] a
  simpa [find] using this

theorem mem_emplace_find {K V : Type} [DecidableEq K] {A : Type} (f : A → K × V) (l : List A) :
    ∀ (m : List (K × V)), (∀ e ∈ m, find m e.1 = some e.2) →
      ∀ e ∈ l.foldl (fun m a => emplace m (f a).1 (f a).2) m,
        find (l.foldl (fun m a => emplace m (f a).1 (f a).2) m) e.1 = some e.2 := by
  induction l with
  | nil => intro m h; exact h
  | cons a l ih =>
    intro m h
    rw [List.foldl_cons]
    apply ih
    intro e he
    rw [find_emplace]
    unfold emplace at he
    split at he
    · rw [h e he]; simp
    · next hn =>
      rcases List.mem_append.1 he with he | he
      · rw [h e he]; simp
      · obtain rfl := List.mem_singleton.1 he
        have : find m (f a).1 = none := by
          apply find_none
          intro v hv
          exact hn (List.any_eq_true.2 ⟨_, hv, by simp⟩)
        simp [this]

theorem mem_directEdges {found : List (Nat × Bool)} {a : Nat} {v : Bool} :
    (a, v) ∈ directEdges found ↔ find found a = some v := by
  constructor
  · intro h
    rw [← find_directEdges]
    exact mem_emplace_find (fun e : Nat × Bool => e) found [] (by simp) (a, v) h
  · intro h
    rw [← find_directEdges] at h
    exact find_mem h

/-- What a line says about two surfaces. -/
def said (found : List (Nat × Bool)) (a b : Nat) : Option Bool :=
  match find found a, find found b with
  | some va, some vb => some (va != vb)
  | _, _ => none

/-- The pairs emplaced for a line. -/
def emplaced (edges : List (Nat × Bool)) : List ((Nat × Nat) × Bool) :=
  edges.flatMap fun s0 => (edges.filter fun s1 => decide (s0.1 < s1.1)).map fun s1 => ((s0.1, s1.1), s0.2 != s1.2)

theorem foldl_filter_emplace (edges : List (Nat × Bool)) (s0 : Nat × Bool) (m : PairedSigns) :
    edges.foldl (fun m s1 => if s0.1 < s1.1 then emplace m (s0.1, s1.1) (s0.2 != s1.2) else m) m =
      ((edges.filter fun s1 => decide (s0.1 < s1.1)).map fun s1 => ((s0.1, s1.1), s0.2 != s1.2)).foldl
        (fun m e => emplace m e.1 e.2) m := by
  induction edges generalizing m with
  | nil => rfl
  | cons e l ih =>
    rw [List.foldl_cons, List.filter_cons]
    by_cases h : s0.1 < e.1
    · rw [if_pos h, if_pos (by simpa using h), List.map_cons, List.foldl_cons]; exact ih _
    · rw [if_neg h, if_neg (by simpa using h)]; exact ih _

theorem foldl_emplaced (edges rest : List (Nat × Bool)) (m : PairedSigns) :
    rest.foldl (fun m s0 => edges.foldl (fun m s1 => if s0.1 < s1.1 then emplace m (s0.1, s1.1) (s0.2 != s1.2) else m) m) m =
      (rest.flatMap fun s0 => (edges.filter fun s1 => decide (s0.1 < s1.1)).map fun s1 => ((s0.1, s1.1), s0.2 != s1.2)).foldl
        (fun m e => emplace m e.1 e.2) m := by
  induction rest generalizing m with
  | nil => rfl
  | cons e l ih => rw [List.foldl_cons, List.flatMap_cons, List.foldl_append, ih, foldl_filter_emplace]

theorem pairLine_eq (m : PairedSigns) (found : List (Nat × Bool)) :
    pairLine m found = (emplaced (directEdges found)).foldl (fun m e => emplace m e.1 e.2) m := by
  unfold pairLine emplaced
  dsimp only
  split
  · next h =>
    match hd : directEdges found with
    | [] => rfl
    | [e] => simp
    | _ :: _ :: _ => rw [hd] at h; simp only [List.length_cons] at h; omega
  · exact foldl_emplaced _ _ _

theorem find_emplaced (found : List (Nat × Bool)) (a b : Nat) :
    find (emplaced (directEdges found)) (a, b) = if a < b then said found a b else none := by
  have hmem : ∀ v, ((a, b), v) ∈ emplaced (directEdges found) ↔
      a < b ∧ ∃ va vb, find found a = some va ∧ find found b = some vb ∧ v = (va != vb) := by
    intro v
    unfold emplaced
    rw [List.mem_flatMap]
    constructor
    · rintro ⟨⟨x, vx⟩, hx, h⟩
      rw [List.mem_map] at h
      obtain ⟨⟨y, vy⟩, hy, he⟩ := h
      rw [List.mem_filter] at hy
      have hlt : x < y := by simpa using hy.2
      simp only [Prod.mk.injEq] at he
      obtain ⟨⟨rfl, rfl⟩, rfl⟩ := he
      exact ⟨hlt, vx, vy, mem_directEdges.1 hx, mem_directEdges.1 hy.1, rfl⟩
    · rintro ⟨hlt, va, vb, ha, hb, rfl⟩
      refine ⟨(a, va), mem_directEdges.2 ha, ?_⟩
      rw [List.mem_map]
      exact ⟨(b, vb), List.mem_filter.2 ⟨mem_directEdges.2 hb, by simpa using hlt⟩, rfl⟩
  by_cases h : a < b
  · rw [if_pos h]
    unfold said
    cases ha : find found a with
    | none =>
      exact find_none fun v hv => by
        obtain ⟨_, va, _, h1, _⟩ := (hmem v).1 hv
        rw [ha] at h1; exact absurd h1 (by simp)
    | some va =>
      cases hb : find found b with
      | none =>
        exact find_none fun v hv => by
          obtain ⟨_, _, vb, _, h2, _⟩ := (hmem v).1 hv
          rw [hb] at h2; exact absurd h2 (by simp)
      | some vb =>
        refine find_of_mem ((hmem _).2 ⟨h, va, vb, ha, hb, rfl⟩) ?_
        intro v' hv
        obtain ⟨_, va', vb', h1, h2, rfl⟩ := (hmem v').1 hv
        rw [ha] at h1; rw [hb] at h2
        obtain rfl := Option.some.inj h1
        obtain rfl := Option.some.inj h2
        rfl
  · rw [if_neg h]
    exact find_none fun v hv => h ((hmem v).1 hv).1

theorem find_foldl_pairLine (lines : List (List (Nat × Bool))) (m : PairedSigns) (a b : Nat) :
    find (lines.foldl pairLine m) (a, b) =
      (find m (a, b)).or (if a < b then lines.findSome? (fun l => said l a b) else none) := by
  induction lines generalizing m with
  | nil => by_cases h : a < b <;> simp [h]
  | cons l lines ih =>
    rw [List.foldl_cons, ih, pairLine_eq]
    have := find_foldl (fun e : (Nat × Nat) × Bool => e) (emplaced (directEdges l)) m (a, b)
    rw [this, List.map_id', find_emplaced, Option.or_assoc]
    congr 1
    by_cases h : a < b
    · rw [if_pos h, if_pos h, if_pos h, List.findSome?_cons]
      cases said l a b <;> simp
    · simp [h]

theorem said_comm (l : List (Nat × Bool)) (a b : Nat) : said l a b = said l b a := by
  unfold said
  cases find l a <;> cases find l b <;> simp [bne_comm]

/-- The sign of a pair comes from the first line both surfaces run along. -/
theorem pairOf_eq (lines : List (List (Nat × Bool))) (a b : Nat) :
    pairOf (pairedSigns lines) a b = if a = b then none else lines.findSome? (fun l => said l a b) := by
  unfold pairOf pairedSigns
  rw [find_foldl_pairLine]
  simp only [find, Option.none_or]
  rcases Nat.lt_trichotomy a b with h | h | h
  · rw [Nat.min_eq_left (Nat.le_of_lt h), Nat.max_eq_right (Nat.le_of_lt h), if_pos h, if_neg (Nat.ne_of_lt h)]
  · subst h; simp
  · rw [Nat.min_eq_right (Nat.le_of_lt h), Nat.max_eq_left (Nat.le_of_lt h), if_pos h, if_neg (Nat.ne_of_gt h)]
    congr 1; funext l; exact said_comm l b a

/-! ### Propagation -/

/-- Number of surfaces without a sign. -/
def missing (signs : List (Option Bool)) : Nat := signs.countP (fun s => s.isNone)

/-- What the scan of the neighbours of `d` does. -/
structure Scanned (pair : Nat → Nat → Option Bool) (d : Nat) (v : Bool) (cand : List Nat) (st st' : SignState) : Prop where
  length : st'.1.length = st.1.length
  keep : ∀ (i : Nat) (w : Bool), st.1[i]? = some (some w) → st'.1[i]? = some (some w)
  keepQueue : ∀ i ∈ st.2, i ∈ st'.2
  done : ∀ s ∈ cand, s < st.1.length → pair d s ≠ none → ∃ w, st'.1[s]? = some (some w)
  fresh : ∀ (i : Nat) (w : Bool), st'.1[i]? = some (some w) → st.1[i]? = some (some w) ∨
    (i ∈ st'.2 ∧ i < st.1.length ∧ ∃ b, pair d i = some b ∧ w = (if b then v else !v))
  queue : ∀ i ∈ st'.2, i ∈ st.2 ∨ ∃ w, st'.1[i]? = some (some w)
  size : missing st'.1 + st'.2.length = missing st.1 + st.2.length

theorem missing_set {signs : List (Option Bool)} {s : Nat} {w : Bool} (h : signs[s]? = some none) :
    missing (signs.set s (some w)) + 1 = missing signs := by
  induction signs generalizing s with
  | nil => simp at h
  | cons a l ih =>
    cases s with
    | zero =>
      simp at h; subst h
      simp [missing]
    | succ s =>
      have := ih (by simpa using h)
      simp only [missing, List.set_cons_succ, List.countP_cons] at this ⊢
      omega

theorem scanned (pair : Nat → Nat → Option Bool) (d : Nat) (v : Bool) (cand : List Nat) :
    ∀ st, Scanned pair d v cand st (cand.foldl (signStep pair d v) st) := by
  induction cand with
  | nil =>
    intro st
    exact ⟨rfl, fun _ _ h => h, fun _ h => h, by simp, fun _ _ h => .inl h, fun _ h => .inl h, rfl⟩
  | cons s cand ih =>
    intro st
    rw [List.foldl_cons]
    have hs := ih (signStep pair d v st s)
    by_cases hn : st.1[s]? = some none
    · cases hp : pair d s with
      | none =>
        have e : signStep pair d v st s = st := by simp [signStep, hn, hp]
        rw [e] at hs ⊢
        refine ⟨hs.length, hs.keep, hs.keepQueue, ?_, hs.fresh, hs.queue, hs.size⟩
        intro t ht htl hpt
        rcases List.mem_cons.1 ht with rfl | ht
        · exact absurd hp hpt
        · exact hs.done t ht htl hpt
      | some b =>
        have e : signStep pair d v st s = (st.1.set s (some (if b then v else !v)), st.2 ++ [s]) := by simp [signStep, hn, hp]
        rw [e] at hs ⊢
        have hsl : s < st.1.length := by
          rcases Nat.lt_or_ge s st.1.length with h | h
          · exact h
          · rw [List.getElem?_eq_none h] at hn; simp at hn
        have hset : (st.1.set s (some (if b then v else !v)))[s]? = some (some (if b then v else !v)) := by
          rw [List.getElem?_set_self hsl]
        refine ⟨by rw [hs.length]; simp, ?_, ?_, ?_, ?_, ?_, ?_⟩
        · intro i w hi
          apply hs.keep
          have hne : s ≠ i := by
            intro he; subst he; rw [hn] at hi; simp at hi
          rw [List.getElem?_set_ne hne]; exact hi
        · intro i hi
          exact hs.keepQueue i (List.mem_append_left _ hi)
        · intro t ht htl hpt
          rcases List.mem_cons.1 ht with rfl | ht
          · exact ⟨_, hs.keep _ _ hset⟩
          · exact hs.done t ht (by simpa using htl) hpt
        · intro i w hi
          rcases hs.fresh i w hi with h | ⟨h1, h2, b', h3, h4⟩
          · by_cases hne : s = i
            · subst hne
              rw [hset] at h
              right
              refine ⟨hs.keepQueue _ (by simp), hsl, b, hp, ?_⟩
              simpa using h.symm
            · dsimp only at h
              rw [List.getElem?_set_ne hne] at h
              exact .inl h
          · exact .inr ⟨h1, by simpa using h2, b', h3, h4⟩
        · intro i hi
          rcases hs.queue i hi with h | h
          · rcases List.mem_append.1 h with h | h
            · exact .inl h
            · obtain rfl := List.mem_singleton.1 h
              exact .inr ⟨_, hs.keep _ _ hset⟩
          · exact .inr h
        · have := hs.size
          have hm := missing_set (w := if b then v else !v) hn
          simp only [List.length_append, List.length_singleton] at this
          omega
    · have e : signStep pair d v st s = st := by
        unfold signStep
        split
        · next h => exact absurd h hn
        · rfl
      rw [e] at hs ⊢
      refine ⟨hs.length, hs.keep, hs.keepQueue, ?_, hs.fresh, hs.queue, hs.size⟩
      intro t ht htl hpt
      rcases List.mem_cons.1 ht with rfl | ht
      · cases hw : st.1[t]? with
        | none => rw [List.getElem?_eq_none_iff] at hw; omega
        | some o =>
          cases o with
          | none => exact absurd hw hn
          | some w => exact ⟨w, hs.keep _ _ hw⟩
      · exact hs.done t ht htl hpt

/-- Surfaces joined by successive pairs, from the first one. -/
inductive Reach (pair : Nat → Nat → Option Bool) (n : Nat) : Nat → Prop
  | first : Reach pair n 0
  | next {d s : Nat} : Reach pair n d → s < n → pair d s ≠ none → Reach pair n s

/-- Invariant of the outer loop. -/
structure Inv (pair : Nat → Nat → Option Bool) (n : Nat) (st : SignState) : Prop where
  length : st.1.length = n
  start : st.1[0]? = some (some true)
  queue : ∀ i ∈ st.2, ∃ w, st.1[i]? = some (some w)
  closed : ∀ d w, st.1[d]? = some (some w) → d ∈ st.2 ∨ ∀ s, s < n → pair d s ≠ none → ∃ w', st.1[s]? = some (some w')
  reach : ∀ d w, st.1[d]? = some (some w) → Reach pair n d
  sound : ∀ σ : Nat → Bool, (∀ i j b, i < n → j < n → pair i j = some b → (b = true ↔ σ i = σ j)) →
    ∀ d w, st.1[d]? = some (some w) → (w = true ↔ σ d = σ 0)

theorem inv_step {pair : Nat → Nat → Option Bool} {n d : Nat} {signs : List (Option Bool)} {q : List Nat} {v : Bool}
    (h : Inv pair n (signs, d :: q)) (hv : signs[d]? = some (some v)) :
    Inv pair n ((List.range n).foldl (signStep pair d v) (signs, q)) ∧
      missing ((List.range n).foldl (signStep pair d v) (signs, q)).1 + ((List.range n).foldl (signStep pair d v) (signs, q)).2.length
        = missing signs + q.length := by
  have hs := scanned pair d v (List.range n) (signs, q)
  generalize (List.range n).foldl (signStep pair d v) (signs, q) = st' at hs
  have hlen : signs.length = n := h.length
  have hdn : d < n := by
    rw [← hlen]
    exact (List.getElem?_eq_some_iff.1 hv).1
  refine ⟨⟨by rw [hs.length]; exact h.length, hs.keep _ _ h.start, ?_, ?_, ?_, ?_⟩, hs.size⟩
  · intro i hi
    rcases hs.queue i hi with h' | h'
    · obtain ⟨w, hw⟩ := h.queue i (List.mem_cons_of_mem _ h')
      exact ⟨w, hs.keep _ _ hw⟩
    · exact h'
  · intro e w he
    rcases hs.fresh e w he with h' | ⟨h1, _⟩
    · rcases h.closed e w h' with h2 | h2
      · rcases List.mem_cons.1 h2 with rfl | h2
        · exact .inr fun s hsn hp => hs.done s (List.mem_range.2 hsn) (by rw [hlen]; exact hsn) hp
        · exact .inl (hs.keepQueue _ h2)
      · refine .inr fun s hsn hp => ?_
        obtain ⟨w', hw'⟩ := h2 s hsn hp
        exact ⟨w', hs.keep _ _ hw'⟩
    · exact .inl h1
  · intro e w he
    rcases hs.fresh e w he with h' | ⟨_, h2, b, hb, _⟩
    · exact h.reach e w h'
    · exact .next (h.reach d v hv) (by rw [← hlen]; exact h2) (by rw [hb]; simp)
  · intro σ hσ e w he
    rcases hs.fresh e w he with h' | ⟨_, h2, b, hb, rfl⟩
    · exact h.sound σ hσ e w h'
    · have h1 := h.sound σ hσ d v hv
      have h3 := hσ d e b hdn (by rw [← hlen]; exact h2) hb
      revert h1 h3
      generalize σ d = x
      generalize σ e = y
      generalize σ 0 = z
      cases b <;> cases v <;> cases x <;> cases y <;> cases z <;> simp

theorem signLoop_spec {pair : Nat → Nat → Option Bool} {n : Nat} (fuel : Nat) : ∀ st, Inv pair n st →
    missing st.1 + st.2.length < fuel → ∃ signs, signLoop pair n fuel st = .ok signs ∧ Inv pair n (signs, []) := by
  induction fuel with
  | zero => intro st _ h; omega
  | succ fuel ih =>
    rintro ⟨signs, q⟩ hI hf
    cases q with
    | nil => exact ⟨signs, rfl, hI⟩
    | cons d q =>
      obtain ⟨v, hv⟩ := hI.queue d List.mem_cons_self
      dsimp only at hv
      obtain ⟨h1, h2⟩ := inv_step hI hv
      have := ih _ h1 (by simp only [List.length_cons] at hf; omega)
      simpa [signLoop, hv] using this

theorem missing_replicate (n : Nat) : missing (List.replicate n none) = n := by
  simp [missing, List.countP_replicate]

theorem inv_start (pair : Nat → Nat → Option Bool) {n : Nat} (hn : 0 < n) :
    Inv pair n ((List.replicate n none).set 0 (some true), [0]) ∧
      missing ((List.replicate n none).set 0 (some true)) + 1 = n := by
  have hget : ∀ i w, ((List.replicate n none).set 0 (some true))[i]? = some (some w) → i = 0 ∧ w = true := by
    intro i w h
    by_cases hi : i = 0
    · subst hi
      rw [List.getElem?_set_self (by simpa using hn)] at h
      simp at h; exact ⟨rfl, h⟩
    · rw [List.getElem?_set_ne (Ne.symm hi), List.getElem?_replicate] at h
      split at h <;> simp at h
  have h0 : ((List.replicate n none).set 0 (some true))[0]? = some (some true) := by
    rw [List.getElem?_set_self (by simpa using hn)]
  refine ⟨⟨by simp, h0, ?_, ?_, ?_, ?_⟩, ?_⟩
  · intro i hi
    obtain rfl := List.mem_singleton.1 hi
    exact ⟨_, h0⟩
  · intro d w h
    obtain ⟨rfl, rfl⟩ := hget d w h
    exact .inl (by simp)
  · intro d w h
    obtain ⟨rfl, rfl⟩ := hget d w h
    exact .first
  · intro σ _ d w h
    obtain ⟨rfl, rfl⟩ := hget d w h
    simp
  · rw [missing_set (w := true) (s := 0), missing_replicate]
    rw [List.getElem?_replicate, if_pos hn]

/-- All surfaces that can be reached have a sign at the end, and only these. -/
theorem final_reach {pair : Nat → Nat → Option Bool} {n : Nat} {signs : List (Option Bool)} (h : Inv pair n (signs, []))
    (d : Nat) : Reach pair n d ↔ ∃ w, signs[d]? = some (some w) := by
  constructor
  · intro hr
    induction hr with
    | first => exact ⟨_, h.start⟩
    | next _ hs hp ih =>
      obtain ⟨w, hw⟩ := ih
      rcases h.closed _ w hw with h' | h'
      · simp at h'
      · exact h' _ hs hp
  · rintro ⟨w, hw⟩
    exact h.reach d w hw

end Verif.Sides
