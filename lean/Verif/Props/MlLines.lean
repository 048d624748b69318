import Verif.Lemmas.MlLines

/-!
# Corners and lines of `.ml` files
-/

namespace Verif.Props.MlLines

open Verif.LsoLines Verif.MlLines Res

variable {P : Type}

/-! ## Line starts written -/

/-- Full statement: the corners of the border of a surface, each with the next vertex of the border, are written. -/
def StartsComplete (back : Border) (corners : List Nat) (starts : List (Nat × Nat)) : Prop :=
  ∀ e, e ∈ starts ↔ e ∈ back.ends ∧ e.1 ∈ corners

/-- The border is a single loop. -/
def OneLoop (b : Border) : Prop := ∀ i < b.ends.length, ∃ k, steps b k 0 = i

/-- Writing the line starts always ends, and they are those of the loop of the first border edge. -/
theorem starts_first_loop {back : Border} (h : NextOk back) (corners : List Nat) :
    ∃ starts, surfaceStarts back corners = .ok starts ∧ ∀ e, e ∈ starts ↔ e.1 ∈ corners ∧ ∃ k, back.ends[steps back k 0]? = some e := by
  obtain ⟨visited, _, hv, hs⟩ := surfaceStarts_ok h corners
  refine ⟨_, hs, ?_⟩
  intro e
  rw [mem_starts]
  constructor
  · rintro ⟨i, hi, he, hc⟩
    obtain ⟨_, k, rfl⟩ := (hv i).1 hi
    exact ⟨hc, k, he⟩
  · rintro ⟨hc, k, he⟩
    have hlt := (List.getElem?_eq_some_iff.1 he).1
    exact ⟨_, (hv _).2 ⟨by omega, k, rfl⟩, he, hc⟩

/-- When the border is a single loop, all corners are written, once each. -/
theorem starts_complete_partial {back : Border} (h : NextOk back) (h1 : OneLoop back) (hn : back.ends.Nodup) (corners : List Nat) :
    ∃ starts, surfaceStarts back corners = .ok starts ∧ StartsComplete back corners starts ∧ starts.Nodup := by
  obtain ⟨visited, hnd, hv, hs⟩ := surfaceStarts_ok h corners
  refine ⟨_, hs, ?_, ?_⟩
  · intro e
    rw [mem_starts]
    constructor
    · rintro ⟨i, _, he, hc⟩
      exact ⟨List.mem_of_getElem? he, hc⟩
    · rintro ⟨he, hc⟩
      obtain ⟨i, hi⟩ := List.mem_iff_getElem?.1 he
      have hlt := (List.getElem?_eq_some_iff.1 hi).1
      exact ⟨i, (hv i).2 ⟨by omega, h1 i hlt⟩, hi, hc⟩
  · clear hv hs
    induction visited with
    | nil => exact List.nodup_nil
    | cons i visited ih =>
      rw [List.flatMap_cons]
      obtain ⟨hi, hnd⟩ := List.nodup_cons.1 hnd
      refine List.Nodup.append ?_ (ih hnd) ?_
      · unfold startAt
        split
        · split <;> simp
        · simp
      · intro e he1 he2
        obtain ⟨i', hi', he1, _⟩ := mem_starts.1 (by simpa using he1 : e ∈ [i].flatMap (startAt back corners))
        rw [List.mem_singleton.1 hi'] at he1
        obtain ⟨j, hj, he2, _⟩ := mem_starts.1 he2
        obtain ⟨hil, e1⟩ := List.getElem?_eq_some_iff.1 he1
        obtain ⟨hjl, e2⟩ := List.getElem?_eq_some_iff.1 he2
        have : i = j := (List.Nodup.getElem_inj_iff hn).1 (e1.trans e2.symm)
        exact hi (this ▸ hj)

/-- A surface with a hole: triangles around a triangle; corners 0 and 3. -/
def ring : Border := { ends := [(0, 1), (1, 2), (2, 0), (3, 4), (4, 5), (5, 3)], next := fun i => if i < 3 then (i + 1) % 3 else (i - 2) % 3 + 3 }

/-! ## Borders that are never left -/

theorem startsFrom_diverge {b : Border} {corners : List Nat} (n cur : Nat) :
    startsFrom b corners n cur = .diverge ↔ ∀ k < n, steps b k cur ≠ 0 ∧ steps b k cur < b.ends.length := by
  induction n generalizing cur with
  | zero => exact ⟨fun _ k hk => absurd hk (by omega), fun _ => rfl⟩
  | succ n ih =>
    rw [startsFrom]
    by_cases h0 : cur = 0
    · rw [if_pos h0]
      exact ⟨fun e => (by cases e), fun h => absurd h0 (h 0 (by omega)).1⟩
    · rw [if_neg h0]
      by_cases hl : cur < b.ends.length
      · rw [startOf_ok hl, Res.ok_bind]
        constructor
        · intro e
          have e' : startsFrom b corners n (b.next cur) = .diverge := by
            cases hs : startsFrom b corners n (b.next cur) with
            | diverge => rfl
            | ok a => rw [hs] at e; cases e
            | throw => rw [hs] at e; cases e
            | ub => rw [hs] at e; cases e
          have h1 := (ih _).1 e'
          intro k hk
          cases k with
          | zero => exact ⟨h0, hl⟩
          | succ k => rw [steps_succ']; exact h1 k (by omega)
        · intro h
          rw [(ih (b.next cur)).2 fun k hk => by rw [← steps_succ']; exact h (k + 1) (by omega)]
          rfl
      · have : startOf b corners cur = .ub := by
          unfold startOf
          rw [show Res.index b.ends cur = .ub by unfold Res.index; rw [List.getElem?_eq_none (by omega)]]
          rfl
        rw [this]
        exact ⟨fun e => (by cases e), fun h => absurd (h 0 (by omega)).2 hl⟩

theorem steps_add (b : Border) (j k i : Nat) : steps b (j + k) i = steps b j (steps b k i) := by
  induction j with
  | zero => rw [Nat.zero_add]; rfl
  | succ j ih =>
    rw [show j + 1 + k = (j + k) + 1 by omega]
    show b.next (steps b (j + k) i) = b.next (steps b j (steps b k i))
    rw [ih]

/-- The walk along the border goes on for ever exactly when it never comes back to its first edge: the bound on the number of turns is not one of the results. -/
theorem starts_diverge_iff {b : Border} {corners : List Nat} (hb : 0 < b.ends.length) :
    surfaceStarts b corners = .diverge ↔ ∀ k, 0 < k → steps b k 0 ≠ 0 ∧ steps b k 0 < b.ends.length := by
  have hs : surfaceStarts b corners = .diverge ↔ startsFrom b corners b.ends.length (b.next 0) = .diverge := by
    unfold surfaceStarts
    rw [if_neg (by simpa using List.ne_nil_of_length_pos hb), startOf_ok hb, Res.ok_bind]
    cases startsFrom b corners b.ends.length (b.next 0) <;> simp
  rw [hs, startsFrom_diverge]
  constructor
  · intro h
    have h1 : ∀ k, 0 < k → k ≤ b.ends.length → steps b k 0 ≠ 0 ∧ steps b k 0 < b.ends.length := by
      intro k hk hkn
      have := h (k - 1) (by omega)
      rwa [← steps_succ', show k - 1 + 1 = k by omega] at this
    -- Two of the first edges are the same.
    have hrep : ∃ i j, 0 < i ∧ i < j ∧ j ≤ b.ends.length ∧ steps b i 0 = steps b j 0 := by
      by_contra hno
      have hnd : ((List.range' 1 b.ends.length).map fun k => steps b k 0).Nodup := by
        rw [List.nodup_iff_pairwise_ne, List.pairwise_map]
        refine List.Pairwise.imp_of_mem ?_ (List.pairwise_lt_range' (s := 1) (n := b.ends.length))
        intro i j hi hj hij e
        rw [List.mem_range'_1] at hi hj
        exact hno ⟨i, j, by omega, hij, by omega, e⟩
      have hsub : ((List.range' 1 b.ends.length).map fun k => steps b k 0) ⊆ List.range' 1 (b.ends.length - 1) := by
        intro x hx
        obtain ⟨k, hk, rfl⟩ := List.mem_map.1 hx
        rw [List.mem_range'_1] at hk
        have := h1 k (by omega) (by omega)
        rw [List.mem_range'_1]
        omega
      have := (hnd.subperm hsub).length_le
      rw [List.length_map, List.length_range', List.length_range'] at this
      omega
    obtain ⟨i, j, hi, hij, hj, e⟩ := hrep
    intro k
    induction k using Nat.strongRecOn with
    | _ k ih =>
      intro hk
      by_cases hkn : k ≤ b.ends.length
      · exact h1 k hk hkn
      · have : steps b k 0 = steps b (k - (j - i)) 0 := by
          rw [show k = (k - j) + j by omega, steps_add, ← e, ← steps_add]
          congr 1
          omega
        rw [this]
        exact ih (k - (j - i)) (by omega) (by omega)
  · intro h k _
    rw [← steps_succ']
    exact h (k + 1) (by omega)

/-- A border whose edges lead to the second one for ever. -/
theorem lasso_diverges : surfaceStarts { ends := [(0, 1), (1, 2), (2, 1)], next := fun i => if i = 1 then 2 else 1 } [0] = .diverge := by decide +kernel


/-- The corners on the other loops are not written. -/
theorem hole_corner_lost : surfaceStarts ring [0, 3] = .ok [(0, 1)] ∧ ¬ StartsComplete ring [0, 3] [(0, 1)] := by
  refine ⟨by decide +kernel, ?_⟩
  intro h
  have := (h (3, 4)).2 (by decide +kernel)
  revert this
  decide

/-! ## Lines read -/

/-- The vertices of the line read from a start: from the corner along the border to the next corner. -/
structure LineOf (b : Border) (corners : List Nat) (start : Nat × Nat) (l : List Nat) : Prop where
  begins : ∃ r, l = start.1 :: start.2 :: r
  ends : ∀ a, l.getLast? = some a → a ∈ corners
  inside : ∀ t ∈ triples l, t.2.1 ∉ corners
  along : ∀ p ∈ pairs l, p ∈ b.ends

theorem run_lineOf {b : Border} (h : NextOk b) {corners : List Nat} {i : Nat} {r : List Nat} (hr : Run b corners i r) :
    ∀ {e : Nat × Nat}, b.ends[i]? = some e → LineOf b corners e (e.1 :: r) := by
  induction hr with
  | @stop i e' he' hc =>
    intro e he
    rw [he'] at he
    cases he
    refine ⟨⟨[], rfl⟩, ?_, ?_, ?_⟩
    · intro a ha; cases ha; exact hc
    · intro t ht; cases ht
    · intro p hp
      rcases List.mem_cons.1 hp with rfl | hp
      · exact List.mem_of_getElem? he'
      · cases hp
  | @go i e' r he' hc hr ih =>
    intro e he
    rw [he'] at he
    cases he
    have hf := List.getElem?_eq_getElem (h.lt _ (List.getElem?_eq_some_iff.1 he').1)
    have hm := h.meets _ _ _ he' hf
    obtain ⟨⟨r', hb⟩, h1, h2, h3⟩ := ih hf
    rw [hm] at h1 h2 h3 hb
    injection hb with _ hb
    subst hb
    refine ⟨⟨_, rfl⟩, ?_, ?_, ?_⟩
    · intro a ha
      exact h1 a (by rw [List.getLast?_cons_cons] at ha; exact ha)
    · intro t ht
      rcases List.mem_cons.1 ht with rfl | ht
      · exact hc
      · exact h2 t ht
    · intro p hp
      rcases List.mem_cons.1 hp with rfl | hp
      · exact List.mem_of_getElem? he'
      · exact h3 p hp

theorem findIdx?_eq {l : List (Nat × Nat)} {e : Nat × Nat} {i : Nat} (h : l.findIdx? (fun x => decide (x = e)) = some i) : l[i]? = some e := by
  obtain ⟨hi, h1, _⟩ := List.findIdx?_eq_some_iff_getElem.1 h
  rw [List.getElem?_eq_getElem hi]
  simpa using h1

theorem findIdx?_of_mem {l : List (Nat × Nat)} {e : Nat × Nat} (h : e ∈ l) : ∃ i, l.findIdx? (fun x => decide (x = e)) = some i := by
  cases hf : l.findIdx? (fun x => decide (x = e)) with
  | some i => exact ⟨i, rfl⟩
  | none => exact absurd (List.findIdx?_eq_none_iff.1 hf e h) (by simp)

/-- Vertices of a surface that are corners. -/
def CornersAre (s : MSurface P) (corners : List Nat) : Prop := ∀ v, (s.corner v).isSome = true ↔ v ∈ corners

/-- Reading a line that starts at a corner ends, with a line that goes along the border to the next corner; only an edge that is not on the
border is refused. -/
theorem compute_line {s : MSurface P} (hf : NextOk s.fwd) (hb : NextOk s.back) {corners : List Nat} (hc : CornersAre s corners) {start : Nat × Nat}
    (hs : start.1 ∈ corners) :
    (start ∉ s.back.ends ∧ start ∉ s.fwd.ends ∧ computeLine s start = .throw) ∨
    ∃ d, computeLine s start = .ok d ∧ d.points = d.indices.map s.point ∧ s.corner start.1 = some d.corner0 ∧
      (∀ a, d.indices.getLast? = some a → s.corner a = some d.corner1) ∧
      (LineOf s.back corners start d.indices ∨ LineOf s.fwd corners start d.indices) := by
  have hsome := (hc start.1).2 hs
  obtain ⟨c0, hc0⟩ := Option.isSome_iff_exists.1 hsome
  unfold computeLine
  rw [hc0]
  have finish : ∀ {b : Border} {i : Nat}, NextOk b → b.ends[i]? = some start →
      ∃ r, follow s b b.ends.length i = .ok r ∧ LineOf b corners start (start.1 :: r) := by
    intro b i hn hi
    obtain ⟨r, hr⟩ := follow_returns (s := s) hn hi hsome
    exact ⟨r, hr, run_lineOf hn (follow_run hc hr) hi⟩
  have close : ∀ {b : Border} {r : List Nat}, followStart s start = .ok r → LineOf b corners start (start.1 :: r) →
      ∃ d : LineData P, (followStart s start >>= fun r => endLine s c0 (start.1 :: r)) = .ok d ∧
        d.points = d.indices.map s.point ∧ some c0 = some d.corner0 ∧ (∀ a, d.indices.getLast? = some a → s.corner a = some d.corner1) ∧
        LineOf b corners start d.indices := by
    intro b r hr hl
    have hlast : (start.1 :: r).getLast? = some ((start.1 :: r).getLastD 0) := by
      rw [List.getLastD_eq_getLast?, List.getLast?_cons]
      rfl
    have := (hc _).2 (hl.ends _ hlast)
    obtain ⟨c1, hc1⟩ := Option.isSome_iff_exists.1 this
    refine ⟨{ corner0 := c0, corner1 := c1, indices := start.1 :: r, points := (start.1 :: r).map s.point }, ?_, rfl, rfl, ?_, hl⟩
    · rw [hr, Res.ok_bind]
      unfold endLine
      rw [hc1]
    · intro a ha
      rw [hlast] at ha
      cases ha
      exact hc1
  have hfs : followStart s start = match s.back.ends.findIdx? (fun x => decide (x = start)) with
      | some i => follow s s.back s.back.ends.length i
      | none => match s.fwd.ends.findIdx? (fun x => decide (x = start)) with
        | some i => follow s s.fwd s.fwd.ends.length i
        | none => .throw := rfl
  cases h1 : s.back.ends.findIdx? (fun x => decide (x = start)) with
  | some i =>
    right
    obtain ⟨r, hr, hl⟩ := finish hb (findIdx?_eq h1)
    rw [h1] at hfs
    obtain ⟨d, e, ha, hb, hcc, hd⟩ := close (hfs.trans hr) hl
    exact ⟨d, e, ha, hb, hcc, .inl hd⟩
  | none =>
    rw [h1] at hfs
    cases h2 : s.fwd.ends.findIdx? (fun x => decide (x = start)) with
    | some i =>
      right
      obtain ⟨r, hr, hl⟩ := finish hf (findIdx?_eq h2)
      simp only [h2] at hfs
      obtain ⟨d, e, ha, hb, hcc, hd⟩ := close (hfs.trans hr) hl
      exact ⟨d, e, ha, hb, hcc, .inr hd⟩
    | none =>
      left
      simp only [h2] at hfs
      refine ⟨?_, ?_, ?_⟩
      · intro hm
        obtain ⟨i, hi⟩ := findIdx?_of_mem hm
        rw [h1] at hi
        cases hi
      · intro hm
        obtain ⟨i, hi⟩ := findIdx?_of_mem hm
        rw [h2] at hi
        cases hi
      · simp only [hfs]
        rfl

/-- Reading a line is undefined behaviour exactly when it starts at a vertex that is no corner: its unique vertex is read without a check. -/
theorem compute_line_ub {s : MSurface P} (hf : NextOk s.fwd) (hb : NextOk s.back) {corners : List Nat} (hc : CornersAre s corners) {start : Nat × Nat} :
    computeLine s start = .ub ↔ start.1 ∉ corners := by
  constructor
  · intro h hs
    rcases compute_line hf hb hc hs with ⟨-, -, h1⟩ | ⟨d, h1, -⟩ <;> rw [h] at h1 <;> cases h1
  · intro hs
    have hn : s.corner start.1 = none := by
      cases h : s.corner start.1 with
      | none => rfl
      | some c => exact absurd ((hc start.1).1 (by rw [h]; rfl)) hs
    rw [computeLine, hn]

/-- Saving then loading a surface with a single border loop and at least one corner: every border edge is on a line read from the line starts
written. -/
theorem border_round_trip {s : MSurface P} (hf : NextOk s.fwd) (hb : NextOk s.back) (h1 : OneLoop s.back) (hn : s.back.ends.Nodup)
    {corners : List Nat} {starts : List (Nat × Nat)} (hw : surfaceStarts s.back corners = .ok starts)
    (hc : CornersAre s (starts.map Prod.fst)) (hex : starts ≠ []) :
    ∀ e ∈ s.back.ends, ∃ start ∈ starts, ∃ d, computeLine s start = .ok d ∧ e ∈ pairs d.indices := by
  obtain ⟨starts', hw', hcomp⟩ := starts_first_loop hb corners
  rw [hw] at hw'
  cases hw'
  intro e he
  obtain ⟨i, hi⟩ := List.mem_iff_getElem?.1 he
  have hlt := (List.getElem?_eq_some_iff.1 hi).1
  obtain ⟨e0, he0⟩ := List.exists_mem_of_ne_nil _ hex
  obtain ⟨_, k0, hk0⟩ := (hcomp e0).1 he0
  have hloop : ∃ k f, s.back.ends[steps s.back k i]? = some f ∧ f.1 ∈ starts.map Prod.fst := by
    obtain ⟨ki, hki⟩ := h1 i hlt
    have h0 : 0 < s.back.ends.length := by omega
    obtain ⟨p, hp0, _, hp⟩ := steps_return hb h0
    have hmul : ∀ m, steps s.back (m * p) 0 = 0 := by
      intro m
      induction m with
      | zero => rw [Nat.zero_mul]; rfl
      | succ m ih => rw [Nat.succ_mul, steps_add, hp, ih]
    have hle : ki ≤ ki * p := Nat.le_mul_of_pos_right ki hp0
    refine ⟨k0 + (ki * p - ki), e0, ?_, List.mem_map.2 ⟨e0, he0, rfl⟩⟩
    rw [steps_add, ← hki, ← steps_add s.back (ki * p - ki), Nat.sub_add_cancel hle, hmul]
    exact hk0
  obtain ⟨j, k, f, hj, hfj, hfc, hno⟩ := corner_before hb hlt hloop
  obtain ⟨e1, he1, hef⟩ := List.mem_map.1 hfc
  have hf1 : f.1 ∈ corners := by rw [← hef]; exact ((hcomp e1).1 he1).1
  have hjlt := (List.getElem?_eq_some_iff.1 hfj).1
  have hfs : f ∈ starts := by
    obtain ⟨kj, hkj⟩ := h1 j hjlt
    exact (hcomp f).2 ⟨hf1, kj, by rw [hkj]; exact hfj⟩
  refine ⟨f, hfs, ?_⟩
  obtain ⟨i', hi'⟩ := findIdx?_of_mem (List.mem_of_getElem? hfj)
  have hii : i' = j := by
    obtain ⟨hil, e1⟩ := List.getElem?_eq_some_iff.1 (findIdx?_eq hi')
    obtain ⟨hjl, e2⟩ := List.getElem?_eq_some_iff.1 hfj
    exact (List.Nodup.getElem_inj_iff hn).1 (e1.trans e2.symm)
  subst hii
  rcases compute_line hf hb hc (List.mem_map.2 ⟨f, hfs, rfl⟩) with ⟨hno', _, _⟩ | ⟨d, hd, _, _, _, _⟩
  · exact absurd (List.mem_of_getElem? hfj) hno'
  · refine ⟨d, hd, ?_⟩
    have hind : ∃ r, follow s s.back s.back.ends.length i' = .ok r ∧ d.indices = f.1 :: r := by
      unfold computeLine at hd
      cases hcf : s.corner f.1 with
      | none => rw [hcf] at hd; cases hd
      | some c0 =>
        rw [hcf] at hd
        obtain ⟨r, hr, hd⟩ := Res.bind_eq_ok.1 hd
        have hfs' : followStart s f = follow s s.back s.back.ends.length i' := by
          have : followStart s f = match s.back.ends.findIdx? (fun x => decide (x = f)) with
            | some i => follow s s.back s.back.ends.length i
            | none => match s.fwd.ends.findIdx? (fun x => decide (x = f)) with
              | some i => follow s s.fwd s.fwd.ends.length i
              | none => .throw := rfl
          rw [this, hi']
        rw [hfs'] at hr
        refine ⟨r, hr, ?_⟩
        unfold endLine at hd
        split at hd
        · cases hd
        · cases hd
          rfl
    obtain ⟨r, hr, hdi⟩ := hind
    rw [hdi]
    exact run_covers hb (follow_run hc hr) hfj hno (by rw [hj]; exact hi)

/-! ## Lines shared by surfaces -/

/-- The vertices of a surface along a line are at the points of the line, in order. -/
structure OnLine (close : P → P → Bool) (s : MSurface P) (l : Line P) (indices : List Nat) : Prop where
  points : List.Forall₂ (fun p v => p = s.point v ∨ close p (s.point v) = true) l.points indices
  first : ∀ v, indices.head? = some v → s.corner v = some l.corner0
  last : ∀ v, indices.getLast? = some v → s.corner v = some l.corner1

theorem linesEqual_forall₂ {close : P → P → Bool} : ∀ {ps qs : List P}, linesEqual close ps qs = true → List.Forall₂ (fun p q => close p q = true) ps qs := by
  intro ps
  induction ps with
  | nil =>
    intro qs h
    cases qs with
    | nil => exact .nil
    | cons q qs => cases h
  | cons p ps ih =>
    intro qs h
    cases qs with
    | nil => cases h
    | cons q qs =>
      have h : (close p q && linesEqual close ps qs) = true := h
      rw [Bool.and_eq_true] at h
      exact .cons h.1 (ih h.2)

/-- What was computed for the line: the two corners and the points of its vertices. -/
structure DataOk (s : MSurface P) (d : LineData P) : Prop where
  points : d.points = d.indices.map s.point
  first : ∀ v, d.indices.head? = some v → s.corner v = some d.corner0
  last : ∀ v, d.indices.getLast? = some v → s.corner v = some d.corner1

theorem computeLine_data {s : MSurface P} {start : Nat × Nat} {d : LineData P} (h : computeLine s start = .ok d) : DataOk s d := by
  unfold computeLine at h
  cases hc : s.corner start.1 with
  | none => rw [hc] at h; cases h
  | some c0 =>
    rw [hc] at h
    obtain ⟨r, _, h⟩ := Res.bind_eq_ok.1 h
    unfold endLine at h
    split at h
    · cases h
    · rename_i c1 hc1
      cases h
      refine ⟨rfl, ?_, ?_⟩
      · intro v hv
        cases hv
        exact hc
      · intro v hv
        have : (start.1 :: r).getLastD 0 = v := by
          rw [List.getLastD_eq_getLast?, hv]
          rfl
        rw [this] at hc1
        exact hc1

theorem forall₂_map_right {α β γ : Type} {R : α → β → Prop} {f : γ → β} : ∀ {l : List α} {m : List γ}, List.Forall₂ R l (m.map f) →
    List.Forall₂ (fun a c => R a (f c)) l m := by
  intro l m
  induction m generalizing l with
  | nil => intro h; cases h; exact .nil
  | cons c m ih => intro h; cases h with | cons h1 h2 => exact .cons h1 (ih h2)

theorem forall₂_same {α β : Type} {R : α → β → Prop} {f : β → α} (h : ∀ b, R (f b) b) (m : List β) : List.Forall₂ R (m.map f) m := by
  induction m with
  | nil => exact .nil
  | cons b m ih => exact .cons (h b) ih

theorem forall₂_weaken {α β : Type} {R S : α → β → Prop} (h : ∀ a b, R a b → S a b) {l : List α} {m : List β} (hf : List.Forall₂ R l m) :
    List.Forall₂ S l m := by
  induction hf with
  | nil => exact .nil
  | cons h1 _ ih => exact .cons (h _ _ h1) ih

/-- One line is another: same corners and points, in one direction or the other. -/
def SameLine (close : P → P → Bool) (l m : Line P) : Prop :=
  (l.corner0 = m.corner0 ∧ l.corner1 = m.corner1 ∧ linesEqual close l.points m.points = true) ∨
  (l.corner0 = m.corner1 ∧ l.corner1 = m.corner0 ∧ linesEqual close l.points m.points.reverse = true)

theorem findOrCreate_spec (close : P → P → Bool) (lines : List (Line P)) {s : MSurface P} {d : LineData P} (hd : DataOk s d) :
    ∃ more l, (findOrCreate close lines d).1 = lines ++ more ∧ (lines ++ more)[(findOrCreate close lines d).2.1]? = some l ∧
      OnLine close s l (findOrCreate close lines d).2.2 ∧ (more = [] ∨ (more = [l] ∧ ∀ m ∈ lines, ¬ SameLine close m l)) := by
  unfold findOrCreate
  cases h1 : lines.findIdx? fun l => decide (l.corner0 = d.corner0 ∧ l.corner1 = d.corner1) && linesEqual close l.points d.points with
  | some k =>
    obtain ⟨hk, hp, _⟩ := List.findIdx?_eq_some_iff_getElem.1 h1
    simp only [Bool.and_eq_true, decide_eq_true_eq] at hp
    refine ⟨[], lines[k], by simp, by simp, ⟨?_, ?_, ?_⟩, .inl rfl⟩
    · have := linesEqual_forall₂ hp.2
      rw [hd.points] at this
      exact forall₂_weaken (fun _ _ h => .inr h) (forall₂_map_right this)
    · intro v hv; rw [hp.1.1]; exact hd.first v hv
    · intro v hv; rw [hp.1.2]; exact hd.last v hv
  | none =>
    cases h2 : lines.findIdx? fun l => decide (l.corner0 = d.corner1 ∧ l.corner1 = d.corner0) && linesEqual close l.points d.points.reverse with
    | some k =>
      obtain ⟨hk, hp, _⟩ := List.findIdx?_eq_some_iff_getElem.1 h2
      simp only [Bool.and_eq_true, decide_eq_true_eq] at hp
      refine ⟨[], lines[k], by simp, by simp, ⟨?_, ?_, ?_⟩, .inl rfl⟩
      · have := linesEqual_forall₂ hp.2
        rw [hd.points, ← List.map_reverse] at this
        exact forall₂_weaken (fun _ _ h => .inr h) (forall₂_map_right this)
      · intro v hv; rw [hp.1.1]; rw [List.head?_reverse] at hv; exact hd.last v hv
      · intro v hv; rw [hp.1.2]; rw [List.getLast?_reverse] at hv; exact hd.first v hv
    | none =>
      refine ⟨[⟨d.corner0, d.corner1, d.points⟩], ⟨d.corner0, d.corner1, d.points⟩, rfl, by simp, ⟨?_, hd.first, hd.last⟩, .inr ⟨rfl, ?_⟩⟩
      · rw [hd.points]
        exact forall₂_same (fun v => .inl rfl) _
      · intro m hm hsame
        have n1 := List.findIdx?_eq_none_iff.1 h1 m hm
        have n2 := List.findIdx?_eq_none_iff.1 h2 m hm
        rcases hsame with ⟨a, b, c⟩ | ⟨a, b, c⟩
        · simp only at a b c
          simp [a, b, c] at n1
        · simp only at a b c
          simp [a, b, c] at n2

/-- What the lines and the pieces read are. -/
structure LinesOk (close : P → P → Bool) (surfaces : List (MSurface P)) (lines : List (Line P)) (pieces : List Piece) : Prop where
  on : ∀ p ∈ pieces, ∃ s l, surfaces[p.surface]? = some s ∧ lines[p.line]? = some l ∧ OnLine close s l p.indices
  once : ∀ (j k : Nat) (l m : Line P), j < k → lines[j]? = some l → lines[k]? = some m → ¬ SameLine close l m

theorem lineStep_ok {close : P → P → Bool} {surfaces : List (MSurface P)} {st st' : List (Line P) × List Piece} {x : Nat × Nat × Nat}
    (h : LinesOk close surfaces st.1 st.2) (hs : lineStep close surfaces st x = .ok st') : LinesOk close surfaces st'.1 st'.2 := by
  unfold lineStep at hs
  obtain ⟨s, hsx, hs⟩ := Res.bind_eq_ok.1 hs
  obtain ⟨d, hd, hs⟩ := Res.bind_eq_ok.1 hs
  cases hs
  obtain ⟨more, l, e, hl, ho, hm⟩ := findOrCreate_spec close st.1 (computeLine_data hd)
  have hsx := Res.index_eq_ok.1 hsx
  refine ⟨?_, ?_⟩
  · intro p hp
    rcases List.mem_append.1 hp with hp | hp
    · obtain ⟨s', l', h1, h2, h3⟩ := h.on p hp
      refine ⟨s', l', h1, ?_, h3⟩
      rw [e, List.getElem?_append_left (List.getElem?_eq_some_iff.1 h2).1]
      exact h2
    · rw [List.mem_singleton.1 hp]
      exact ⟨s, l, hsx, by rw [e]; exact hl, ho⟩
  · intro j k a b hjk ha hb
    simp only [e] at ha hb
    rcases hm with rfl | ⟨rfl, hno⟩
    · rw [List.append_nil] at ha hb
      exact h.once j k a b hjk ha hb
    · have hk := (List.getElem?_eq_some_iff.1 hb).1
      rw [List.length_append, List.length_singleton] at hk
      rw [List.getElem?_append_left (by omega)] at ha
      by_cases hkl : k < st.1.length
      · rw [List.getElem?_append_left hkl] at hb
        exact h.once j k a b hjk ha hb
      · have : k = st.1.length := by omega
        subst this
        rw [List.getElem?_append_right (Nat.le_refl _), Nat.sub_self] at hb
        cases hb
        exact hno a (List.mem_of_getElem? ha)

theorem createLines_ok {close : P → P → Bool} {surfaces : List (MSurface P)} {starts : List (Nat × Nat × Nat)} {lines : List (Line P)}
    {pieces : List Piece} (h : createLines close surfaces starts = .ok (lines, pieces)) : LinesOk close surfaces lines pieces := by
  have : ∀ (xs : List (Nat × Nat × Nat)) (st st' : List (Line P) × List Piece), LinesOk close surfaces st.1 st.2 →
      Res.foldM' (lineStep close surfaces) st xs = .ok st' → LinesOk close surfaces st'.1 st'.2 := by
    intro xs
    induction xs with
    | nil => intro st st' hi he; cases he; exact hi
    | cons x xs ih =>
      intro st st' hi he
      rw [Res.foldM'_cons] at he
      obtain ⟨st1, h1, he⟩ := Res.bind_eq_ok.1 he
      exact ih st1 st' (lineStep_ok hi h1) he
  exact this starts ([], []) (lines, pieces) ⟨by simp, by intro j k l m _ hj; simp at hj⟩ h

/-- The vertices of a surface tied to a line are at the points of the line, in order, corners included. -/
theorem pieces_on_lines {close : P → P → Bool} {surfaces : List (MSurface P)} {starts : List (Nat × Nat × Nat)} {lines : List (Line P)}
    {pieces : List Piece} (h : createLines close surfaces starts = .ok (lines, pieces)) :
    ∀ p ∈ pieces, ∃ s l, surfaces[p.surface]? = some s ∧ lines[p.line]? = some l ∧ OnLine close s l p.indices :=
  (createLines_ok h).on

/-- A line is made once: no line has the corners and points of an earlier one, in either direction. -/
theorem lines_once {close : P → P → Bool} {surfaces : List (MSurface P)} {starts : List (Nat × Nat × Nat)} {lines : List (Line P)}
    {pieces : List Piece} (h : createLines close surfaces starts = .ok (lines, pieces)) {j k : Nat} {l m : Line P} (hjk : j < k)
    (hj : lines[j]? = some l) (hk : lines[k]? = some m) : ¬ SameLine close l m := (createLines_ok h).once j k l m hjk hj hk

/-- Two surfaces that share the edge from 0 to 1, in opposite directions: one line for both. -/
example : (match createLines (fun a b => decide (a = b))
      [{ fwd := ⟨[(0, 1), (1, 2), (2, 0)], fun i => (i + 1) % 3⟩, back := ⟨[(1, 0), (2, 1), (0, 2)], fun i => (i + 2) % 3⟩, point := id,
         corner := fun v => if v < 2 then some v else none },
       { fwd := ⟨[(0, 1), (1, 2), (2, 0)], fun i => (i + 1) % 3⟩, back := ⟨[(1, 0), (2, 1), (0, 2)], fun i => (i + 2) % 3⟩,
         point := fun v => if v = 0 then 1 else if v = 1 then 0 else 3,
         corner := fun v => if v = 0 then some 1 else if v = 1 then some 0 else none }]
      [(0, 1, 0), (0, 0, 2), (1, 1, 0), (1, 0, 2)] with
    | .ok r => decide (r = ([⟨1, 0, [1, 0]⟩, ⟨0, 1, [0, 2, 1]⟩, ⟨1, 0, [1, 3, 0]⟩],
        [⟨0, 0, [1, 0]⟩, ⟨0, 1, [0, 2, 1]⟩, ⟨1, 0, [0, 1]⟩, ⟨1, 2, [0, 2, 1]⟩]))
    | _ => false) = true := by decide +kernel

/-! ## Relations of lines and surfaces -/

/-- Full statement, for the lines of the line starts of a surface: boundary lines are those met once, internal lines those met twice. -/
def RelationsRight (numbers : List Nat) : Prop :=
  ∀ k, ((true, k) ∈ lineRelations numbers ↔ numbers.count k = 1) ∧ ((false, k) ∈ lineRelations numbers ↔ numbers.count k = 2)

theorem relations_right_partial {numbers : List Nat} (h2 : 2 ≤ numbers.length) (hc : ∀ k, numbers.count k ≤ 2) : RelationsRight numbers := by
  have hp := Ml.sortNat_perm numbers
  have hl : 2 ≤ (Ml.sortNat numbers).length := by rw [hp.length_eq]; exact h2
  have hc' : ∀ k, (Ml.sortNat numbers).count k ≤ 2 := fun k => by rw [hp.count_eq]; exact hc k
  have hr : lineRelations numbers = Ml.runs (Ml.sortNat numbers) := by
    rw [← Ml.pairUp_lastRun _ (Ml.sortNat_sorted numbers) hc' hl]
    exact if_neg (by omega)
  intro k
  rw [hr]
  have := Ml.runs_count _ (Ml.sortNat_sorted numbers) hc'
  rw [this true k, this false k, hp.count_eq]
  exact ⟨Iff.rfl, Iff.rfl⟩

/-- A surface with a single line start: its line gets no relation with it. -/
theorem single_line_unrelated (k : Nat) : lineRelations [k] = [] ∧ ¬ RelationsRight [k] := by
  refine ⟨rfl, ?_⟩
  intro h
  have := (h k).1.2 (by simp)
  cases this

example : lineRelations [3, 1, 4, 1] = [(false, 1), (true, 3), (true, 4)] := by decide +kernel

/-! ## Vertices without unique vertex -/

/-- What a vertex of a surface becomes: its unique vertex if it has one, else the one at its point, else a new one. -/
structure Attached (near : Nat → List Nat) (u u' : List (Option Nat)) (lo hi v : Nat) : Prop where
  kept : ∀ w, u[v]? = some (some w) → u'[v]? = some (some w)
  found : ∀ w, u[v]? = some none → near v = [w] → u'[v]? = some (some w)
  made : u[v]? = some none → near v = [] → ∃ w, lo ≤ w ∧ w < hi ∧ u'[v]? = some (some w)
  unique : u[v]? = some none → (near v).length ≤ 1

/-- A line lies on the surface: each of its unique vertices is one of the surface. -/
def Lies (u : List (Option Nat)) (line : List Nat) : Prop := ∀ x ∈ line, some x ∈ u

/-- What a pass over some vertices does. -/
structure Pass (near : Nat → List Nat) (lines : List (List Nat)) (vs : List Nat) (u u' : List (Option Nat)) (i i' : List Nat) (f f' : Nat) : Prop where
  length : u'.length = u.length
  grows : f ≤ f'
  others : ∀ v, v ∉ vs → u'[v]? = u[v]?
  attached : ∀ v ∈ vs, Attached near u u' f f' v
  apart : ∀ v ∈ vs, ∀ v' ∈ vs, u[v]? = some none → u[v']? = some none → near v = [] → near v' = [] → u'[v]? = u'[v']? → v = v'
  internals : ∀ k, k ∈ i' ↔ k ∈ i ∨ ∃ line, lines[k]? = some line ∧ Lies u' line ∧
    ∃ v ∈ vs, u[v]? = some none ∧ ∃ w, near v = [w] ∧ w ∈ line

theorem Pass.keeps {near : Nat → List Nat} {lines : List (List Nat)} {vs : List Nat} {u u' : List (Option Nat)} {i i' : List Nat} {f f' : Nat}
    (h : Pass near lines vs u u' i i' f f') {v w : Nat} (hv : u[v]? = some (some w)) : u'[v]? = some (some w) := by
  by_cases hm : v ∈ vs
  · exact (h.attached v hm).kept w hv
  · rw [h.others v hm]; exact hv

theorem mem_set_of {u : List (Option Nat)} {v : Nat} {a : Option Nat} (hv : v < u.length) : (u.set v a)[v]? = some a := by
  simp [hv]

/-- The step over one vertex without unique vertex, followed by a pass over the others. -/
theorem pass_step {near : Nat → List Nat} {lines : List (List Nat)} {v : Nat} {vs : List Nat} {u u' : List (Option Nat)} {i more i' : List Nat}
    {f g f' a : Nat} (hv : u[v]? = some none) (hnd : v ∉ vs) (hfg : f ≤ g) (hline : ∀ l ∈ lines, ∀ x ∈ l, x < f)
    (hn : (near v = [] ∧ a = f ∧ g = f + 1 ∧ more = []) ∨ (near v = [a] ∧ g = f ∧
      ∀ k, k ∈ more ↔ k ∉ i ∧ ∃ line, lines[k]? = some line ∧ a ∈ line ∧ Lies (u.set v (some a)) line))
    (h : Pass near lines vs (u.set v (some a)) u' (i ++ more) i' g f') : Pass near lines (v :: vs) u u' i i' f f' := by
  have hlt : v < u.length := (List.getElem?_eq_some_iff.1 hv).1
  have hne : ∀ j, j ≠ v → (u.set v (some a))[j]? = u[j]? := fun j hj => by rw [List.getElem?_set_ne (Ne.symm hj)]
  have hva : u'[v]? = some (some a) := by rw [h.others v hnd]; exact mem_set_of hlt
  have hvs : ∀ j ∈ vs, j ≠ v := fun j hj e => hnd (e ▸ hj)
  have hper : ∀ x, some x ∈ u.set v (some a) → some x ∈ u' := by
    intro x hx
    obtain ⟨j, hj⟩ := List.mem_iff_getElem?.1 hx
    exact List.mem_of_getElem? (h.keeps hj)
  refine ⟨by rw [h.length, List.length_set], Nat.le_trans hfg h.grows, ?_, ?_, ?_, ?_⟩
  · intro j hj
    rw [h.others j (fun hm => hj (List.mem_cons_of_mem _ hm)), hne j (fun e => hj (e ▸ List.mem_cons_self))]
  · intro j hj
    rcases List.mem_cons.1 hj with rfl | hj
    · refine ⟨fun w hw => (by rw [hv] at hw; cases hw), ?_, ?_, ?_⟩
      · intro w _ hw
        rcases hn with ⟨he, _⟩ | ⟨he, _⟩
        · rw [he] at hw; cases hw
        · rw [he] at hw; cases hw; exact hva
      · intro _ hw
        rcases hn with ⟨he, rfl, rfl, _⟩ | ⟨he, _⟩
        · exact ⟨a, Nat.le_refl _, Nat.lt_of_lt_of_le (Nat.lt_succ_self _) h.grows, hva⟩
        · rw [he] at hw; cases hw
      · intro _
        rcases hn with ⟨he, _⟩ | ⟨he, _⟩ <;> rw [he] <;> simp
    · have e := hne j (hvs j hj)
      have ha := h.attached j hj
      refine ⟨fun w hw => ha.kept w (e ▸ hw), fun w hw => ha.found w (e ▸ hw), ?_, fun hw => ha.unique (e ▸ hw)⟩
      intro hw hnear
      obtain ⟨w, h1, h2, h3⟩ := ha.made (e ▸ hw) hnear
      exact ⟨w, Nat.le_trans hfg h1, h2, h3⟩
  · intro j hj j' hj' hu hu' hnj hnj' heq
    have key : ∀ j ∈ vs, u[j]? = some none → near j = [] → near v = [] → u'[v]? ≠ u'[j]? := by
      intro j hj hu hnj hnv heq
      obtain ⟨w, h1, _, h3⟩ := (h.attached j hj).made (by rw [hne j (hvs j hj)]; exact hu) hnj
      rw [hva, h3] at heq
      cases heq
      rcases hn with ⟨_, rfl, rfl, _⟩ | ⟨he, _⟩
      · omega
      · rw [he] at hnv; cases hnv
    rcases List.mem_cons.1 hj with e | hm <;> rcases List.mem_cons.1 hj' with e' | hm'
    · rw [e, e']
    · subst e; exact absurd heq (key j' hm' hu' hnj' hnj)
    · subst e'; exact absurd heq.symm (key j hm hu hnj hnj')
    · exact h.apart j hm j' hm' (by rw [hne j (hvs j hm)]; exact hu) (by rw [hne j' (hvs j' hm')]; exact hu') hnj hnj' heq
  · intro k
    rw [h.internals k, List.mem_append]
    constructor
    · rintro ((hk | hk) | ⟨line, hl, hlies, j, hj, hu, w, hw, hwl⟩)
      · exact .inl hk
      · rcases hn with ⟨_, _, _, rfl⟩ | ⟨he, _, hm⟩
        · cases hk
        · obtain ⟨_, line, hl, hal, hlies⟩ := (hm k).1 hk
          exact .inr ⟨line, hl, fun x hx => hper x (hlies x hx), v, List.mem_cons_self, hv, a, he, hal⟩
      · exact .inr ⟨line, hl, hlies, j, List.mem_cons_of_mem _ hj, by rw [← hne j (hvs j hj)]; exact hu, w, hw, hwl⟩
    · rintro (hk | ⟨line, hl, hlies, j, hj, hu, w, hw, hwl⟩)
      · exact .inl (.inl hk)
      · by_cases hwit : ∃ j ∈ vs, (u.set v (some a))[j]? = some none ∧ ∃ w, near j = [w] ∧ w ∈ line
        · exact .inr ⟨line, hl, hlies, hwit⟩
        · by_cases hki : k ∈ i
          · exact .inl (.inl hki)
          left; right
          rcases List.mem_cons.1 hj with rfl | hj
          · rcases hn with ⟨he, _⟩ | ⟨he, rfl, hm⟩
            · rw [he] at hw; cases hw
            · rw [he] at hw
              cases hw
              refine (hm k).2 ⟨hki, line, hl, hwl, ?_⟩
              intro x hx
              obtain ⟨q, hq⟩ := List.mem_iff_getElem?.1 (hlies x hx)
              by_cases hqm : q ∈ vs
              · have hqlt : q < (u.set j (some a)).length := by
                  rw [← h.length]
                  exact (List.getElem?_eq_some_iff.1 hq).1
                cases hqu : (u.set j (some a))[q]? with
                | none => rw [List.getElem?_eq_none_iff] at hqu; omega
                | some o =>
                  cases o with
                  | some y =>
                    have := (h.attached q hqm).kept y hqu
                    rw [hq] at this
                    cases this
                    exact List.mem_of_getElem? hqu
                  | none =>
                    exfalso
                    have hle := (h.attached q hqm).unique hqu
                    cases hnq : near q with
                    | nil =>
                      obtain ⟨y, h1, _, h3⟩ := (h.attached q hqm).made hqu hnq
                      rw [hq] at h3
                      cases h3
                      have := hline line (List.mem_of_getElem? hl) x hx
                      omega
                    | cons y t =>
                      cases t with
                      | cons _ _ => rw [hnq] at hle; simp at hle
                      | nil =>
                        have := (h.attached q hqm).found y hqu hnq
                        rw [hq] at this
                        cases this
                        exact hwit ⟨q, hqm, hqu, x, hnq, hx⟩
              · rw [h.others q hqm] at hq
                exact List.mem_of_getElem? hq
          · exact absurd ⟨j, hj, by rw [hne j (hvs j hj)]; exact hu, w, hw, hwl⟩ hwit

theorem pass_ok {near : Nat → List Nat} {lines : List (List Nat)} : ∀ {vs : List Nat} {u u' : List (Option Nat)} {i i' : List Nat} {f f' : Nat},
    vs.Nodup → (∀ l ∈ lines, ∀ x ∈ l, x < f) → missingLines near lines vs (u, i, f) = .ok (u', i', f') → Pass near lines vs u u' i i' f f' := by
  intro vs
  induction vs with
  | nil =>
    intro u u' i i' f f' _ _ h
    cases h
    exact ⟨rfl, Nat.le_refl _, fun _ _ => rfl, by simp, by simp, by simp⟩
  | cons v vs ih =>
    intro u u' i i' f f' hnd hline h
    have hnd' := List.nodup_cons.1 hnd
    unfold missingLines at h
    obtain ⟨o, ho, h⟩ := Res.bind_eq_ok.1 h
    have ho := Res.index_eq_ok.1 ho
    cases o with
    | some w =>
      have hp := ih hnd'.2 hline h
      refine ⟨hp.length, hp.grows, fun j hj => hp.others j (fun hm => hj (List.mem_cons_of_mem _ hm)), ?_, ?_, ?_⟩
      · intro j hj
        rcases List.mem_cons.1 hj with rfl | hj
        · exact ⟨fun x hx => hp.keeps hx, fun _ hx => (by rw [ho] at hx; cases hx), fun hx => (by rw [ho] at hx; cases hx),
            fun hx => (by rw [ho] at hx; cases hx)⟩
        · exact hp.attached j hj
      · intro j hj j' hj' hu hu'
        rcases List.mem_cons.1 hj with rfl | hj
        · rw [ho] at hu; cases hu
        · rcases List.mem_cons.1 hj' with rfl | hj'
          · rw [ho] at hu'; cases hu'
          · exact hp.apart j hj j' hj' hu hu'
      · intro k
        rw [hp.internals k]
        constructor
        · rintro (hk | ⟨line, hl, hlies, j, hj, r⟩)
          · exact .inl hk
          · exact .inr ⟨line, hl, hlies, j, List.mem_cons_of_mem _ hj, r⟩
        · rintro (hk | ⟨line, hl, hlies, j, hj, hu, r⟩)
          · exact .inl hk
          · rcases List.mem_cons.1 hj with rfl | hj
            · rw [ho] at hu; cases hu
            · exact .inr ⟨line, hl, hlies, j, hj, hu, r⟩
    | none =>
      simp only at h
      split at h
      · rename_i hn
        have hp := ih hnd'.2 (fun l hl x hx => Nat.lt_succ_of_lt (hline l hl x hx)) h
        exact pass_step (more := []) ho hnd'.1 (Nat.le_succ f) hline (.inl ⟨hn, rfl, rfl, rfl⟩) (by rw [List.append_nil]; exact hp)
      · rename_i w hn
        have hp := ih hnd'.2 hline h
        refine pass_step ho hnd'.1 (Nat.le_refl f) hline (.inr ⟨hn, rfl, ?_⟩) hp
        intro k
        simp only [List.mem_filter, List.mem_range, Bool.and_eq_true, Bool.not_eq_true', List.contains_eq_mem, decide_eq_true_eq,
          decide_eq_false_iff_not, List.all_eq_true, Lies]
        constructor
        · rintro ⟨hk, ⟨h1, h2⟩, h3⟩
          refine ⟨h2, lines[k], List.getElem?_eq_getElem hk, ?_, ?_⟩
          · rw [List.getElem?_eq_getElem hk] at h1; exact h1
          · rw [List.getElem?_eq_getElem hk] at h3; exact h3
        · rintro ⟨h2, line, hl, h1, h3⟩
          refine ⟨(List.getElem?_eq_some_iff.1 hl).1, ⟨?_, h2⟩, ?_⟩
          · rw [hl]; exact h1
          · rw [hl]; exact h3
      · cases h

/-- Every vertex of the surface ends with a unique vertex: the one it had, else the one at its point, else a new one of its own.
Nothing else is given. -/
theorem vertices_attached {near : Nat → List Nat} {lines : List (List Nat)} {u u' : List (Option Nat)} {i i' : List Nat} {f f' : Nat}
    (hline : ∀ l ∈ lines, ∀ x ∈ l, x < f) (h : missingLines near lines (List.range u.length) (u, i, f) = .ok (u', i', f')) :
    u'.length = u.length ∧ (∀ v < u.length, ∃ w, u'[v]? = some (some w) ∧ Attached near u u' f f' v) ∧
      ∀ (v v' : Nat), u[v]? = some none → u[v']? = some none → near v = [] → near v' = [] → u'[v]? = u'[v']? → v = v' := by
  have hp := pass_ok List.nodup_range hline h
  have hr : ∀ (v : Nat) (o : Option Nat), u[v]? = some o → v ∈ List.range u.length := fun v o hv =>
    List.mem_range.2 (List.getElem?_eq_some_iff.1 hv).1
  refine ⟨hp.length, ?_, fun v v' hv hv' => hp.apart v (hr v _ hv) v' (hr v' _ hv') hv hv'⟩
  intro v hv
  have ha := hp.attached v (List.mem_range.2 hv)
  cases hu : u[v]? with
  | none => rw [List.getElem?_eq_none_iff] at hu; omega
  | some o =>
    cases o with
    | some w => exact ⟨w, ha.kept w hu, ha⟩
    | none =>
      have := ha.unique hu
      cases hn : near v with
      | nil => obtain ⟨w, _, _, h3⟩ := ha.made hu hn; exact ⟨w, h3, ha⟩
      | cons w t =>
        cases t with
        | nil => exact ⟨w, ha.found w hu hn, ha⟩
        | cons _ _ => rw [hn] at this; simp at this

/-- The lines made internal are those that lie wholly on the surface and that one of the vertices without unique vertex met. -/
theorem internals_lie {near : Nat → List Nat} {lines : List (List Nat)} {u u' : List (Option Nat)} {i i' : List Nat} {f f' : Nat}
    (hline : ∀ l ∈ lines, ∀ x ∈ l, x < f) (h : missingLines near lines (List.range u.length) (u, i, f) = .ok (u', i', f')) (k : Nat) :
    k ∈ i' ↔ k ∈ i ∨ ∃ line, lines[k]? = some line ∧ (∀ x ∈ line, some x ∈ u') ∧
      ∃ v, u[v]? = some none ∧ ∃ w, near v = [w] ∧ w ∈ line := by
  rw [(pass_ok List.nodup_range hline h).internals k]
  constructor
  · rintro (hk | ⟨line, hl, h1, v, _, r⟩)
    · exact .inl hk
    · exact .inr ⟨line, hl, h1, v, r⟩
  · rintro (hk | ⟨line, hl, h1, v, hv, r⟩)
    · exact .inl hk
    · exact .inr ⟨line, hl, h1, v, List.mem_range.2 (List.getElem?_eq_some_iff.1 hv).1, hv, r⟩

/-- Reading fails exactly when the point of a vertex without unique vertex has several. -/
theorem missing_fails_iff {near : Nat → List Nat} {lines : List (List Nat)} : ∀ (vs : List Nat) (u : List (Option Nat)) (i : List Nat) (f : Nat),
    vs.Nodup → (∀ v ∈ vs, v < u.length) →
    ((∃ r, missingLines near lines vs (u, i, f) = .ok r) ∨ missingLines near lines vs (u, i, f) = .throw) ∧
    (missingLines near lines vs (u, i, f) = .throw ↔ ∃ v ∈ vs, u[v]? = some none ∧ 2 ≤ (near v).length) := by
  intro vs
  induction vs with
  | nil => intro u i f _ _; exact ⟨.inl ⟨_, rfl⟩, by simp [missingLines]⟩
  | cons v vs ih =>
    intro u i f hnd hlt
    have hnd' := List.nodup_cons.1 hnd
    have hv := hlt v List.mem_cons_self
    have hs : ∀ (a : Option Nat) (j : Nat), j ∈ vs → (u.set v a)[j]? = u[j]? := fun a j hj => by
      rw [List.getElem?_set_ne (fun e : v = j => hnd'.1 (e ▸ hj))]
    have hlt' : ∀ a, ∀ j ∈ vs, j < (u.set v a).length := fun a j hj => by
      rw [List.length_set]; exact hlt j (List.mem_cons_of_mem _ hj)
    have hex : ∀ (a : Option Nat), (∃ j ∈ vs, (u.set v a)[j]? = some none ∧ 2 ≤ (near j).length) ↔
        ∃ j ∈ vs, u[j]? = some none ∧ 2 ≤ (near j).length := fun a => by
      constructor
      · rintro ⟨j, hj, h1, h2⟩; exact ⟨j, hj, by rw [← hs a j hj]; exact h1, h2⟩
      · rintro ⟨j, hj, h1, h2⟩; exact ⟨j, hj, by rw [hs a j hj]; exact h1, h2⟩
    have hcons : (u[v]? = some none → ¬ 2 ≤ (near v).length) →
        ((∃ j ∈ v :: vs, u[j]? = some none ∧ 2 ≤ (near j).length) ↔ ∃ j ∈ vs, u[j]? = some none ∧ 2 ≤ (near j).length) := fun hno => by
      constructor
      · rintro ⟨j, hj, h1, h2⟩
        rcases List.mem_cons.1 hj with rfl | hj
        · exact absurd h2 (hno h1)
        · exact ⟨j, hj, h1, h2⟩
      · rintro ⟨j, hj, r⟩; exact ⟨j, List.mem_cons_of_mem _ hj, r⟩
    unfold missingLines
    cases hu : u[v] with
    | some w =>
      have e : Res.index u v = .ok (some w) := Res.index_eq_ok.2 (by rw [List.getElem?_eq_getElem hv, hu])
      simp only [e, Res.ok_bind]
      rw [hcons (fun h => by rw [List.getElem?_eq_getElem hv, hu] at h; cases h)]
      exact ih u i f hnd'.2 (fun j hj => hlt j (List.mem_cons_of_mem _ hj))
    | none =>
      have hu' : u[v]? = some none := by rw [List.getElem?_eq_getElem hv, hu]
      have e : Res.index u v = .ok none := Res.index_eq_ok.2 hu'
      simp only [e, Res.ok_bind]
      cases hn : near v with
      | nil =>
        rw [hcons (fun _ => by rw [hn]; simp), ← hex (some f)]
        exact ih _ i _ hnd'.2 (hlt' _)
      | cons w t =>
        cases t with
        | nil =>
          rw [hcons (fun _ => by rw [hn]; simp), ← hex (some w)]
          exact ih _ _ _ hnd'.2 (hlt' _)
        | cons w' t =>
          exact ⟨.inr rfl, ⟨fun _ => ⟨v, List.mem_cons_self, hu', by rw [hn]; simp⟩, fun _ => rfl⟩⟩

/-- A surface whose border is one closed line with one corner: the line is not its boundary but becomes internal to it. -/
theorem single_line_internal : lineRelations [0] = [] ∧
    (match missingLines (fun v => [v]) [[0, 1, 2, 0]] (List.range 3) ([some 0, none, none], [], 3) with
      | .ok r => decide (r = ([some 0, some 1, some 2], [0], 3))
      | _ => false) = true := ⟨rfl, by decide +kernel⟩

example : ∀ l ∈ [[0, 1, 2, 0]], ∀ x ∈ l, x < 3 := by decide

/-! ## The hypotheses can be met -/

/-- A triangle with corners at 0 and 1. -/
def tri : MSurface Nat :=
  { fwd := ⟨[(0, 1), (1, 2), (2, 0)], fun i => (i + 1) % 3⟩, back := ⟨[(1, 0), (2, 1), (0, 2)], fun i => (i + 2) % 3⟩, point := id,
    corner := fun v => if v < 2 then some v else none }

theorem tri_ok : NextOk tri.fwd ∧ NextOk tri.back ∧ OneLoop tri.back ∧ tri.back.ends.Nodup ∧ CornersAre tri [0, 1] := by
  refine ⟨⟨by decide, by decide, ?_⟩, ⟨by decide, by decide, ?_⟩, ?_, by decide, ?_⟩
  · intro i e f he hf
    rcases i with _ | _ | _ | i <;> first | (cases he; cases hf; rfl) | cases he
  · intro i e f he hf
    rcases i with _ | _ | _ | i <;> first | (cases he; cases hf; rfl) | cases he
  · intro i hi
    have : i < 3 := hi
    rcases i with _ | _ | _ | i
    · exact ⟨0, rfl⟩
    · exact ⟨2, rfl⟩
    · exact ⟨1, rfl⟩
    · omega
  · intro v
    by_cases h : v < 2
    · simp only [tri, h, if_true, Option.isSome_some, true_iff, List.mem_cons, List.not_mem_nil, or_false]
      omega
    · simp only [tri, h, if_false, Option.isSome_none, Bool.false_eq_true, false_iff, List.mem_cons, List.not_mem_nil, or_false]
      omega

example : surfaceStarts tri.back [0, 1] = .ok [(1, 0), (0, 2)] := by decide +kernel

end Verif.Props.MlLines
