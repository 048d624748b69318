import Verif.Props.GocadStable
import Verif.Props.PLineLoops

/-!
# C151 for curves with closed loops

A curve that is kept when it is saved and loaded is saved again as the same file.
-/

set_option linter.unusedSectionVars false

namespace Verif.Props.PLineStable

open Verif Verif.Gocad Verif.GocadMesh Verif.GocadWalk Verif.Props.GocadStable Verif.Props.PLineLoops

variable {D : Type} [Num D]

/-! ## Loops on consecutive vertices -/

/-- The edges of a loop on the vertices from `n` to `n + k`. -/
def ringEdges (n k : Nat) : List Edge := runSegs n k ++ [(n + k, n)]

/-- The edges of loops of `k + 1` vertices each, for `k` in `ks`, on consecutive vertices from `n` on. -/
def ringsEdges : Nat → List Nat → List Edge
  | _, [] => []
  | n, k :: ks => ringEdges n k ++ ringsEdges (n + k + 1) ks

theorem ringEdges_length (n k : Nat) : (ringEdges n k).length = k + 1 := by simp [ringEdges, runSegs_length]

theorem ringEdges_in {n k : Nat} : ∀ e ∈ ringEdges n k, (n ≤ e.1 ∧ n ≤ e.2) ∧ e.1 < n + k + 1 ∧ e.2 < n + k + 1 := by
  intro e he
  rcases List.mem_append.1 he with he | he
  · obtain ⟨i, hi, rfl⟩ := List.mem_map.1 he
    have := List.mem_range.1 hi
    simp only
    omega
  · simp only [List.mem_cons, List.not_mem_nil, or_false] at he
    subst he
    simp only
    omega

theorem ringsEdges_ge {n : Nat} {ks : List Nat} : ∀ e ∈ ringsEdges n ks, n ≤ e.1 ∧ n ≤ e.2 := by
  induction ks generalizing n with
  | nil => simp [ringsEdges]
  | cons k ks ih =>
    intro e he
    rw [ringsEdges] at he
    rcases List.mem_append.1 he with he | he
    · exact (ringEdges_in e he).1
    · have := ih e he
      omega

theorem ringsEdges_length (n : Nat) (ks : List Nat) : (ringsEdges n ks).length = total ks := by
  induction ks generalizing n with
  | nil => rfl
  | cons k ks ih => rw [ringsEdges, List.length_append, ringEdges_length, ih]; simp [total]

/-- The edges around the vertex `j` of a loop of `k + 1` vertices. -/
def ringAround (i k j : Nat) : List EV := if j = 0 then [(i, false), (i + k, true)] else [(i + j - 1, true), (i + j, false)]

theorem around_ring (n i k j : Nat) (hj : j ≤ k) : edgesAroundFrom (n + j) i (ringEdges n k) = ringAround i k j := by
  unfold ringEdges
  rw [around_append, around_run n i k j hj, runSegs_length]
  simp only [edgesAroundFrom, List.append_nil, around, ringAround]
  by_cases h0 : j = 0
  · subst h0
    by_cases hk : k = 0
    · subst hk
      simp
    · rw [if_neg (by omega), if_pos (by omega), if_neg (by omega), if_pos (by omega), if_pos rfl]
      rfl
  · rw [if_pos (by omega), if_neg h0, if_neg (c := n = n + j) (by omega)]
    by_cases hk : j = k
    · subst hk
      simp
    · rw [if_pos (by omega), if_neg (by omega)]
      rfl

theorem around_ring_in {pre post : List Edge} {n k : Nat} (hpre : ∀ e ∈ pre, e.1 < n ∧ e.2 < n)
    (hpost : ∀ e ∈ post, n + k + 1 ≤ e.1 ∧ n + k + 1 ≤ e.2) {j : Nat} (hj : j ≤ k) :
    edgesAround (pre ++ (ringEdges n k ++ post)) (n + j) = ringAround pre.length k j := by
  unfold edgesAround
  rw [around_append, around_append, around_none, around_none (a := post), Nat.zero_add, around_ring n _ k j hj]
  · simp
  · intro e he
    have := hpost e he
    omega
  · intro e he
    have := hpre e he
    omega

/-- Edge `j` of a loop. -/
theorem index_ring {pre post : List Edge} {n k j : Nat} (hj : j ≤ k) :
    Res.index (pre ++ (ringEdges n k ++ post)) (pre.length + j) = .ok (n + j, if j = k then n else n + j + 1) := by
  rw [Res.index_eq_ok, List.getElem?_append_right (by omega), List.getElem?_append_left (by rw [ringEdges_length]; omega)]
  unfold ringEdges
  by_cases h : j = k
  · subst h
    rw [List.getElem?_append_right (by rw [runSegs_length]; omega), runSegs_length, if_pos rfl]
    simp
  · rw [List.getElem?_append_left (by rw [runSegs_length]; omega), if_neg h]
    have : j < k := by omega
    simp [runSegs, this]

theorem evVertex_ring {pre post : List Edge} {n k j : Nat} (hj : j ≤ k) (b : Bool) :
    evVertex (pre ++ (ringEdges n k ++ post)) (pre.length + j, b) = .ok (if b then (if j = k then n else n + j + 1) else n + j) := by
  unfold evVertex
  rw [index_ring hj, Res.ok_bind]
  rfl

/-- The half-edges of a walk along a loop, from its edge `j` on. -/
def ringSteps (i k j : Nat) : List EV := (List.range (k + 1 - j)).map fun a => (i + j + a, false)

theorem ringSteps_succ (i k j : Nat) (h : j ≤ k) : ringSteps i k j = (i + j, false) :: ringSteps i k (j + 1) := by
  unfold ringSteps
  rw [show k + 1 - j = (k + 1 - (j + 1)) + 1 by omega, List.range_succ_eq_map, List.map_cons, List.map_map]
  simp only [Nat.add_zero, List.cons.injEq, true_and]
  apply List.map_congr_left
  intro a _
  simp only [Function.comp, Nat.succ_eq_add_one, Prod.mk.injEq, and_true]
  omega

theorem walk_ring {pre post : List Edge} {n k : Nat} (hpre : ∀ e ∈ pre, e.1 < n ∧ e.2 < n)
    (hpost : ∀ e ∈ post, n + k + 1 ≤ e.1 ∧ n + k + 1 ≤ e.2) (r : Nat) {j fuel : Nat} {done : List Nat} (hr : j + r = k) (hf : r < fuel)
    (hd : ∀ i ∈ done, i < pre.length + j) (hd' : ∀ i, pre.length ≤ i → i < pre.length + j → i ∈ done) :
    ∃ done', walk (pre ++ (ringEdges n k ++ post)) fuel done (pre.length + j, false) = .ok (ringSteps pre.length k j, done') ∧
      ∀ i, i ∈ done' ↔ i ∈ done ∨ (pre.length + j ≤ i ∧ i < pre.length + k + 1) := by
  induction r generalizing j fuel done with
  | zero =>
    obtain ⟨fuel, rfl⟩ : ∃ f, fuel = f + 1 := ⟨fuel - 1, by omega⟩
    have hjk : j = k := by omega
    subst hjk
    refine ⟨(pre.length + j) :: done, ?_, fun i => ?_⟩
    rotate_left
    · rw [List.mem_cons]
      by_cases h : i ∈ done
      · simp only [h, true_or, or_true]
      · simp only [h, false_or, or_false]
        omega
    rw [walk]
    simp only [Bool.not_false]
    have ha := around_ring_in hpre hpost (Nat.zero_le j)
    rw [Nat.add_zero] at ha
    rw [evVertex_ring (Nat.le_refl _) true, Res.ok_bind, if_pos rfl, if_pos rfl, ha]
    have e0 : ringAround pre.length j 0 = [(pre.length, false), (pre.length + j, true)] := rfl
    have e1 : isDone ((pre.length + j) :: done) pre.length = true := by
      unfold isDone
      rw [List.contains_iff_mem, List.mem_cons]
      by_cases h : j = 0
      · exact Or.inl (by omega)
      · exact Or.inr (hd' _ (by omega) (by omega))
    have e2 : isDone ((pre.length + j) :: done) (pre.length + j) = true := by simp [isDone]
    rw [e0, if_pos (by simp)]
    simp only [List.filter_cons, List.filter_nil, e1, e2, Bool.not_true, Bool.false_eq_true, if_false, List.getLast?_nil]
    rw [ringSteps_succ _ _ _ (Nat.le_refl _)]
    simp only [ringSteps, Nat.sub_self, List.range_zero, List.map_nil]
    rfl
  | succ r ih =>
    obtain ⟨fuel, rfl⟩ : ∃ f, fuel = f + 1 := ⟨fuel - 1, by omega⟩
    have hd1 : ∀ i ∈ (pre.length + j) :: done, i < pre.length + (j + 1) := by
      intro i hi
      rcases List.mem_cons.1 hi with rfl | hi
      · omega
      · have := hd i hi; omega
    obtain ⟨done', h1, h2⟩ := ih (j := j + 1) (fuel := fuel) (done := (pre.length + j) :: done) (by omega) (by omega) hd1 (by
      intro i h1 h2
      rw [List.mem_cons]
      by_cases h : i = pre.length + j
      · exact Or.inl h
      · exact Or.inr (hd' i h1 (by omega)))
    refine ⟨done', ?_, fun i => ?_⟩
    rotate_left
    · rw [h2, List.mem_cons]
      by_cases h : i ∈ done
      · simp only [h, true_or, or_true]
      · simp only [h, false_or, or_false]
        omega
    rw [walk]
    simp only [Bool.not_false]
    rw [evVertex_ring (by omega) true, Res.ok_bind, if_pos rfl, if_neg (c := j = k) (by omega), Nat.add_assoc n, around_ring_in hpre hpost (by omega)]
    have ha : ringAround pre.length k (j + 1) = [(pre.length + j, true), (pre.length + (j + 1), false)] := by
      unfold ringAround
      rw [if_neg (by omega)]
      rfl
    rw [ha, if_pos (by simp)]
    have e1 : isDone ((pre.length + j) :: done) (pre.length + j) = true := by simp [isDone]
    have e2 : isDone ((pre.length + j) :: done) (pre.length + (j + 1)) = false := by
      unfold isDone
      rw [← Bool.not_eq_true, List.contains_iff_mem]
      intro hm
      have := hd1 _ hm
      omega
    simp only [List.filter_cons, List.filter_nil, e1, e2, Bool.not_true, Bool.not_false, if_true, Bool.false_eq_true, if_false, List.getLast?_singleton]
    rw [h1, Res.ok_bind, ringSteps_succ pre.length k j (by omega)]
    rfl

theorem ringSteps_vertices {pre post : List Edge} {n k : Nat} :
    Res.mapM' (evVertex (pre ++ (ringEdges n k ++ post))) (ringSteps pre.length k 0) = .ok (run n k) := by
  have h : ∀ e ∈ ringSteps pre.length k 0, evVertex (pre ++ (ringEdges n k ++ post)) e = .ok (n + (e.1 - pre.length)) := by
    intro e he
    obtain ⟨a, ha, rfl⟩ := List.mem_map.1 he
    have ha := List.mem_range.1 ha
    rw [Nat.add_zero, evVertex_ring (by omega) false]
    simp
  rw [Res.mapM'_ok h]
  simp only [ringSteps, run, List.map_map, Res.ok.injEq, Nat.sub_zero]
  apply List.map_congr_left
  intro a _
  simp

theorem ringSteps_length (i k : Nat) : (ringSteps i k 0).length = k + 1 := by simp [ringSteps]

/-- Text of loops. -/
def ringsText (kw : Str) (attrs : List (Attr D)) (pts : List (Pt D)) : Nat → Nat → List Nat → File
  | _, _, [] => []
  | off, n, k :: ks => runText kw attrs pts off n k ++ [segLine (off + k) (n + 1)] ++ ringsText kw attrs pts (off + (k + 1)) (n + k + 1) ks

theorem writeIline_ring {m : Mesh Edge D} {pre post : List Edge} {n k : Nat} (hm : m.cells = pre ++ (ringEdges n k ++ post))
    (hp : n + k < m.points.length) (hpre : ∀ e ∈ pre, e.1 < n ∧ e.2 < n) (hpost : ∀ e ∈ post, n + k + 1 ≤ e.1 ∧ n + k + 1 ≤ e.2)
    (kw : Str) (attrs : List (Attr D)) {s : PLState} (hd : ∀ i ∈ s.done, i < pre.length) :
    ∃ s', writeIline m kw attrs (pre.length, false) s = .ok s' ∧ s'.out = s.out ++ runText kw attrs m.points s.offset n k ∧
      s'.offset = s.offset + (k + 1) ∧ s'.nbDone = s.nbDone + k ∧ ∀ i, i ∈ s'.done ↔ i ∈ s.done ∨ (pre.length ≤ i ∧ i < pre.length + k + 1) := by
  have hlen : k < m.cells.length + 1 := by
    rw [hm]
    simp only [List.length_append, ringEdges_length]
    omega
  obtain ⟨done', h1, h2⟩ := walk_ring hpre hpost k (j := 0) (fuel := m.cells.length + 1) (done := s.done) (by omega) hlen (by simpa using hd)
    (by intro i h1 h2; omega)
  rw [← hm] at h1
  have h3 : Res.mapM' (evVertex m.cells) (ringSteps pre.length k 0) = .ok (run n k) := by
    rw [hm]
    exact ringSteps_vertices
  have h1 : walk m.cells (m.cells.length + 1) s.done (pre.length, false) = .ok (ringSteps pre.length k 0, done') := h1
  unfold writeIline
  rw [h1]
  simp only [Res.ok_bind]
  rw [h3, Res.ok_bind, ilineVrtx_eq _ _ (by
    intro v hv
    obtain ⟨a, ha, rfl⟩ := List.mem_map.1 hv
    have := List.mem_range.1 ha
    omega), Res.ok_bind]
  refine ⟨_, rfl, ?_, ?_, ?_, by simpa using h2⟩
  · simp [ringSteps_length, runText]
  · simp [ringSteps_length]
  · simp [ringSteps_length]

theorem startingEdge_eq {nb i : Nat} {done : List Nat} (hi : i < nb) (h : ∀ j, j ∈ done ↔ j < i) : startingEdge nb done = i := by
  unfold startingEdge
  have : (List.range nb).find? (fun e => !isDone done e) = some i := by
    rw [List.find?_range_eq_some]
    refine ⟨?_, by simpa using hi, ?_⟩
    · simp only [isDone, Bool.not_eq_true', ← Bool.not_eq_true, List.contains_iff_mem, h]
      omega
    · intro j hj
      simp only [isDone, Bool.not_not, List.contains_iff_mem, h]
      exact hj
  rw [this]
  rfl

theorem closedIlines_rings {m : Mesh Edge D} (ks : List Nat) {pre : List Edge} {n : Nat} (hm : m.cells = pre ++ ringsEdges n ks)
    (hp : n + total ks ≤ m.points.length) (hpre : ∀ e ∈ pre, e.1 < n ∧ e.2 < n) (kw : Str) (attrs : List (Attr D)) {s : PLState}
    (hd : ∀ i, i ∈ s.done ↔ i < pre.length) (hnb : s.nbDone = pre.length) (ho : 0 < s.offset) {fuel : Nat} (hf : ks.length ≤ fuel) :
    ∃ s', closedIlines m kw attrs fuel s = .ok s' ∧ s'.out = s.out ++ ringsText kw attrs m.points s.offset n ks := by
  induction ks generalizing pre n s fuel with
  | nil =>
    have : s.nbDone = m.cells.length := by rw [hm, hnb]; simp [ringsEdges]
    refine ⟨s, ?_, by simp [ringsText]⟩
    cases fuel with
    | zero => rw [closedIlines, if_pos this]
    | succ f => rw [closedIlines, if_pos this]
  | cons k ks ih =>
    have htot : total (k :: ks) = k + 1 + total ks := by simp [total]
    rw [ringsEdges] at hm
    obtain ⟨f, rfl⟩ : ∃ f, fuel = f + 1 := ⟨fuel - 1, by simp at hf; omega⟩
    have hlen : m.cells.length = pre.length + (k + 1) + (ringsEdges (n + k + 1) ks).length := by
      rw [hm]
      simp only [List.length_append, ringEdges_length]
      omega
    obtain ⟨s1, e1, o1, f1, n1, d1⟩ := writeIline_ring (s := s) hm (by omega) hpre (fun e he => ringsEdges_ge e he) kw attrs (fun i hi => (hd i).1 hi)
    have hidx : Res.index m.cells pre.length = .ok (n, if 0 = k then n else n + 1) := by
      have := index_ring (pre := pre) (post := ringsEdges (n + k + 1) ks) (n := n) (Nat.zero_le k)
      rw [hm]
      exact this
    obtain ⟨s2, e2, o2⟩ := ih (pre := pre ++ ringEdges n k) (n := n + k + 1) (by rw [hm, List.append_assoc]) (by omega) (by
        intro e he
        rcases List.mem_append.1 he with he | he
        · have := hpre e he
          omega
        · exact (ringEdges_in e he).2)
      (s := { s1 with out := s1.out ++ [segLine (s1.offset - 1) (n + 1)], nbDone := s1.nbDone + 1 }) (by
        intro i
        rw [List.length_append, ringEdges_length]
        show i ∈ s1.done ↔ _
        rw [d1, hd]
        omega)
      (by
        rw [List.length_append, ringEdges_length]
        show s1.nbDone + 1 = _
        omega)
      (by show 0 < s1.offset; omega) (fuel := f) (by simp at hf; omega)
    refine ⟨s2, ?_, ?_⟩
    · rw [closedIlines, if_neg (by omega), startingEdge_eq (by omega) hd]
      simp only
      rw [e1, Res.ok_bind, hidx, Res.ok_bind]
      exact e2
    · rw [o2]
      show s1.out ++ [segLine (s1.offset - 1) (n + 1)] ++ ringsText kw attrs m.points s1.offset (n + k + 1) ks = _
      rw [o1, f1, ringsText, show s.offset + (k + 1) - 1 = s.offset + k by omega]
      simp only [List.append_assoc]

/-- The vertices of loops are not where open lines start. -/
theorem rings_two {edges : List Edge} (ks : List Nat) {pre : List Edge} {n : Nat} (hm : edges = pre ++ ringsEdges n ks)
    (hpre : ∀ e ∈ pre, e.1 < n ∧ e.2 < n) : ∀ v ∈ List.range' n (total ks), (edgesAround edges v).length = 2 := by
  induction ks generalizing pre n with
  | nil => simp [total]
  | cons k ks ih =>
    have htot : total (k :: ks) = k + 1 + total ks := by simp [total]
    rw [ringsEdges] at hm
    intro v hv
    rw [List.mem_range'_1] at hv
    by_cases h : v < n + k + 1
    · have := around_ring_in hpre (fun e he => ringsEdges_ge (ks := ks) e he) (j := v - n) (k := k) (by omega)
      rw [show n + (v - n) = v by omega, ← hm] at this
      rw [this]
      unfold ringAround
      split <;> rfl
    · refine ih (pre := pre ++ ringEdges n k) (n := n + k + 1) (by rw [hm, List.append_assoc]) ?_ v (by rw [List.mem_range'_1]; omega)
      intro e he
      rcases List.mem_append.1 he with he | he
      · have := hpre e he
        omega
      · exact (ringEdges_in e he).2

theorem runEdges_lt {n : Nat} {ks : List Nat} : ∀ e ∈ runEdges n ks, e.1 < n + total ks ∧ e.2 < n + total ks := by
  induction ks generalizing n with
  | nil => simp [runEdges]
  | cons k ks ih =>
    have htot : total (k :: ks) = k + 1 + total ks := by simp [total]
    intro e he
    rw [runEdges] at he
    rcases List.mem_append.1 he with he | he
    · obtain ⟨i, hi, rfl⟩ := List.mem_map.1 he
      have := List.mem_range.1 hi
      simp only
      omega
    · have := ih e he
      omega

/-- A curve made of open lines and then of loops on consecutive vertices is written line by line. -/
theorem save_both {m : Mesh Edge D} (ks rs : List Nat) (hks : ∀ k ∈ ks, 0 < k) (hm : m.cells = runEdges 0 ks ++ ringsEdges (total ks) rs)
    (hp : m.points.length = total ks + total rs) :
    savePL m = .ok (PLine.headPL m ++ (runsText (vrtxKeyword m.attrs) (writtenPL m.attrs) m.points 1 0 ks ++
      ringsText (vrtxKeyword m.attrs) (writtenPL m.attrs) m.points (1 + total ks) (total ks) rs) ++ [cs!"END"]) := by
  have hpost : ∀ e ∈ ringsEdges (total ks) rs, 0 + total ks ≤ e.1 ∧ 0 + total ks ≤ e.2 := fun e he => by
    have := ringsEdges_ge e he
    omega
  obtain ⟨s, e, o, nb, f, d⟩ := openIlines_runs ks hks (pre := []) (post := ringsEdges (total ks) rs) (n := 0) (by simpa using hm) (by omega) (by simp)
    hpost (vrtxKeyword m.attrs) (writtenPL m.attrs) (s := {}) (by simp)
  simp only [List.length_nil, List.not_mem_nil, false_or, Nat.zero_le, true_and, Nat.zero_add] at e nb f d
  have ht : (startPoints m).flatMap (edgesAround m.cells) = tips 0 ks := by
    unfold startPoints
    have h1 := tips_eq m.cells ks hks (pre := []) (post := ringsEdges (total ks) rs) (n := 0) (by simpa using hm) (by simp) hpost
    have h2 : (List.range' (total ks) (total rs)).filter (fun v => (edgesAround m.cells v).length != 2) = [] := by
      rw [List.filter_eq_nil_iff]
      intro v hv
      rw [rings_two rs hm (fun e he => by have := runEdges_lt (n := 0) e he; omega) v hv]
      simp
    rw [hp, List.range_eq_range', ← List.range'_append_1, List.filter_append, Nat.zero_add, h2, List.append_nil]
    exact h1
  obtain ⟨s', e', o'⟩ := closedIlines_rings rs hm (by omega) (fun e he => by have := runEdges_lt (n := 0) e he; omega) (vrtxKeyword m.attrs)
    (writtenPL m.attrs) (s := s) (by intro i; rw [d, runEdges_length]) (by rw [nb, runEdges_length]) (by omega) (fuel := m.cells.length) (by
      rw [hm, List.length_append, ringsEdges_length]
      have : rs.length ≤ total rs := by
        clear * -
        induction rs with
        | nil => simp
        | cons r rs ih =>
          have : total (r :: rs) = r + 1 + total rs := by simp [total]
          rw [List.length_cons]
          omega
      omega)
  unfold savePL writeIlines
  simp only
  rw [ht, e, Res.ok_bind, e', Res.ok_bind, o', o, f]
  rfl

/-! ## Where loops start -/

/-- The numbers of the first vertices of loops in the file. -/
def firsts : Nat → List Ln → List Nat
  | _, [] => []
  | n, l :: ls => n :: firsts (n + l.hs.length) ls

theorem once_nodup {edges : List Edge} {opens loops : List Ln} (g : Lines edges opens loops) :
    (opens.flatMap fun l => l.hs.map Prod.fst).Nodup ∧ (loops.flatMap fun l => l.hs.map Prod.fst).Nodup ∧
      ∀ a ∈ opens.flatMap fun l => l.hs.map Prod.fst, ∀ b ∈ loops.flatMap fun l => l.hs.map Prod.fst, a ≠ b := by
  have := g.once.nodup_iff.2 List.nodup_range
  rw [List.flatMap_append, List.nodup_append] at this
  exact this

/-- The vertices of a loop are in no open line. -/
theorem not_open {edges : List Edge} {opens loops : List Ln} (g : Lines edges opens loops) {l : Ln} (hl : l ∈ loops) {h : EV} (hh : h ∈ l.hs) :
    vtx edges h ∉ listed edges opens := by
  intro hv
  obtain ⟨k, hk, hv⟩ := List.mem_flatMap.1 hv
  obtain ⟨x, hx, hxv⟩ : ∃ x : EV, x.1 ∈ k.hs.map Prod.fst ∧ vtx edges x = vtx edges h := by
    unfold Ln.verts at hv
    rw [g.opens k hk] at hv
    rcases List.mem_append.1 hv with hv | hv
    · obtain ⟨x, hx, e⟩ := List.mem_map.1 hv
      exact ⟨x, List.mem_map_of_mem hx, e⟩
    · simp only [Bool.false_eq_true, if_false, Option.mem_toList, Option.map_eq_some_iff] at hv
      obtain ⟨y, hy, e⟩ := hv
      exact ⟨opp y, List.mem_map.2 ⟨y, List.mem_of_getLast? hy, rfl⟩, e⟩
  have hr := g.rings l hl
  have hxl : x.1 ∈ l.hs.map Prod.fst := by
    by_cases hne : h = x
    · rw [← hne]
      exact List.mem_map_of_mem hh
    · obtain ⟨y, hy, e⟩ := List.mem_map.1 hx
      have hlt := g.lt k (List.mem_append_left _ hk) y hy
      rw [e] at hlt
      exact hr.both h x ⟨hne, g.lt l (List.mem_append_right _ hl) h hh, hlt, hxv.symm, hr.two h (List.mem_map_of_mem hh)⟩ (List.mem_map_of_mem hh)
  exact (once_nodup g).2.2 _ (List.mem_flatMap.2 ⟨k, hk, hx⟩) _ (List.mem_flatMap.2 ⟨l, hl, hxl⟩) rfl

/-- The vertices of loops are all different. -/
theorem listed_nodup {edges : List Edge} {opens loops : List Ln} (g : Lines edges opens loops) : (listed edges loops).Nodup := by
  have hn := (once_nodup g).2.1
  have hlt : ∀ l ∈ loops, ∀ h ∈ l.hs, h.1 < edges.length := fun l hl => g.lt l (List.mem_append_right _ hl)
  unfold listed
  rw [List.nodup_flatMap]
  constructor
  · intro l hl
    rw [ring_verts (g.rings l hl)]
    exact ring_nodup (g.rings l hl) (hlt l hl) (g.chain l (List.mem_append_right _ hl)).1 ((List.nodup_flatMap.1 hn).1 l hl)
  · refine (List.nodup_flatMap.1 hn).2.imp_of_mem ?_
    intro l k hl hk hd v hvl hvk
    rw [ring_verts (g.rings l hl)] at hvl
    rw [ring_verts (g.rings k hk)] at hvk
    obtain ⟨x, hx, rfl⟩ := List.mem_map.1 hvl
    obtain ⟨y, hy, e⟩ := List.mem_map.1 hvk
    have := same_ring hn g.rings hlt hl hk hx hy e.symm
    subst this
    exact hd (List.mem_map_of_mem hx) (List.mem_map_of_mem hx)

theorem starts_from {edges : List Edge} {L : List Nat} (ls : List Ln) (hr : ∀ l ∈ ls, Ring edges l) {Q : List Nat} (hL : L = Q ++ listed edges ls)
    (h : ∀ v ∈ starts edges ls, L[v]? = some v) (hu : ∀ v ∈ starts edges ls, ∀ i j : Nat, L[i]? = some v → L[j]? = some v → i = j) :
    starts edges ls = firsts Q.length ls := by
  induction ls generalizing Q with
  | nil => rfl
  | cons l ls ih =>
    have hv := ring_verts (hr l (by simp))
    obtain ⟨hne, -, -, -, h0, -⟩ := ring_last (hr l (by simp))
    have hs : starts edges (l :: ls) = vtx edges (l.hs.headD (0, false)) :: starts edges ls := rfl
    rw [hs] at h hu
    have hat : L[Q.length]? = some (vtx edges (l.hs.headD (0, false))) := by
      have hpos := List.length_pos_iff.2 hne
      rw [hL, List.getElem?_append_right (Nat.le_refl _), Nat.sub_self]
      unfold listed
      rw [List.flatMap_cons, hv, List.getElem?_append_left (by simpa using hpos), List.getElem?_map, h0]
      rfl
    have h1 := hu _ List.mem_cons_self _ _ (h _ List.mem_cons_self) hat
    have h2 := ih (fun l hl => hr l (by simp [hl])) (Q := Q ++ l.verts edges) (by rw [hL]; simp [listed]) (fun v hv => h v (List.mem_cons_of_mem _ hv))
      (fun v hv => hu v (List.mem_cons_of_mem _ hv))
    rw [hs, firsts, h1, h2, List.length_append, hv, List.length_map]

/-- Closing segments that name the vertex they should name it by its number in the file. -/
theorem starts_firsts {edges : List Edge} {opens loops : List Ln} (g : Lines edges opens loops)
    (h : ∀ v ∈ starts edges loops, (listed edges (opens ++ loops))[v]? = some v) : starts edges loops = firsts (nbVerts edges opens) loops := by
  have hL : listed edges (opens ++ loops) = listed edges opens ++ listed edges loops := by simp [listed]
  rw [← listed_length]
  refine starts_from loops g.rings hL h ?_
  intro v hv i j hi hj
  obtain ⟨l, hl, rfl⟩ := List.mem_map.1 hv
  have hno := not_open g hl (ring_last (g.rings l hl)).2.1
  have hge : ∀ {i : Nat}, (listed edges (opens ++ loops))[i]? = some (vtx edges (l.hs.headD (0, false))) →
      (listed edges opens).length ≤ i ∧ (listed edges loops)[i - (listed edges opens).length]? = some (vtx edges (l.hs.headD (0, false))) := by
    intro i hi
    rw [hL] at hi
    by_cases hlt : i < (listed edges opens).length
    · rw [List.getElem?_append_left hlt] at hi
      exact absurd (List.mem_of_getElem? hi) hno
    · rw [List.getElem?_append_right (by omega)] at hi
      exact ⟨by omega, hi⟩
  obtain ⟨i1, i2⟩ := hge hi
  obtain ⟨j1, j2⟩ := hge hj
  obtain ⟨a1, a2⟩ := List.getElem?_eq_some_iff.1 i2
  obtain ⟨b1, b2⟩ := List.getElem?_eq_some_iff.1 j2
  have := ((listed_nodup g).getElem_inj_iff (hi := a1) (hj := b1)).1 (a2.trans b2.symm)
  omega

/-! ## The text -/

theorem lnsSegs_rings {edges : List Edge} {ls : List Ln} (n : Nat) (hr : ∀ l ∈ ls, Ring edges l) (hs : starts edges ls = firsts n ls) :
    lnsSegs edges n ls = ringsEdges n (ls.map (nbEdges edges)) := by
  induction ls generalizing n with
  | nil => rfl
  | cons l ls ih =>
    have hl := hr l (by simp)
    have hv := ring_verts hl
    obtain ⟨hne, -, -, -, h0, -⟩ := ring_last hl
    have hpos := List.length_pos_iff.2 hne
    have hlen : (l.verts edges).length = l.hs.length := by rw [hv, List.length_map]
    have hs' : vtx edges (l.hs.headD (0, false)) :: starts edges ls = n :: firsts (n + l.hs.length) ls := hs
    rw [List.cons.injEq] at hs'
    have hh : l.hs.head? = some (l.hs.headD (0, false)) := by rw [List.head?_eq_getElem?, h0]
    rw [lnsSegs, List.map_cons, ringsEdges, lnSegs, hl.closed, hh, hlen, ih (n + l.hs.length) (fun a ha => hr a (by simp [ha])) hs'.2]
    simp only [if_true, Option.map_some, Option.toList_some, hs'.1, nbEdges, hlen, ringEdges]
    rw [show n + (l.hs.length - 1) + 1 = n + l.hs.length by omega, show n + l.hs.length - 1 = n + (l.hs.length - 1) by omega]

theorem lnsText_rings [Settled D] {m : Mesh Edge D} {kw : Str} (off n : Nat) {ls : List Ln} (hr : ∀ l ∈ ls, Ring m.cells l)
    (hs : starts m.cells ls = firsts n ls) {P : List (Pt D)} (hP : P.drop n = (listed m.cells ls).map fun v => (ptAt m v).round) :
    lnsText m kw [] off ls = ringsText kw [] P off n (ls.map (nbEdges m.cells)) := by
  induction ls generalizing off n with
  | nil => rfl
  | cons l ls ih =>
    have hl := hr l (by simp)
    have hv := ring_verts hl
    obtain ⟨hne, -, -, -, h0, -⟩ := ring_last hl
    have hpos := List.length_pos_iff.2 hne
    have hlen : (l.verts m.cells).length = l.hs.length := by rw [hv, List.length_map]
    have hs' : vtx m.cells (l.hs.headD (0, false)) :: starts m.cells ls = n :: firsts (n + l.hs.length) ls := hs
    rw [List.cons.injEq] at hs'
    have hh : l.hs.head? = some (l.hs.headD (0, false)) := by rw [List.head?_eq_getElem?, h0]
    have hP : P.drop n = (l.verts m.cells).map (fun v => (ptAt m v).round) ++ (listed m.cells ls).map fun v => (ptAt m v).round := by
      rw [hP]
      simp [listed]
    have hnext : P.drop (n + l.hs.length) = (listed m.cells ls).map fun v => (ptAt m v).round := by
      rw [← hlen, ← List.drop_drop, hP, List.drop_append_of_le_length (by simp)]
      simp
    have hk : nbEdges m.cells l + 1 = l.hs.length := by unfold nbEdges; omega
    rw [lnsText, List.map_cons, ringsText, hk, show n + nbEdges m.cells l + 1 = n + l.hs.length by omega,
      ← ih (off + l.hs.length) _ (fun a ha => hr a (by simp [ha])) hs'.2 hnext, hlen]
    congr 1
    unfold lnText runText
    rw [hl.closed, vlines_same _ off hP, hh]
    have hrun : run n (nbEdges m.cells l) = List.range' n (l.verts m.cells).length := by
      rw [run, List.range'_eq_map_range, hk, hlen]
    rw [hrun]
    simp only [if_true, Option.map_some, Option.toList_some, hs'.1, hlen, nbEdges, List.cons_append, List.append_assoc]
    rw [show off + l.hs.length - 1 = off + (l.hs.length - 1) by omega]

theorem lnsText_both (m : Mesh Edge D) (kw : Str) (attrs : List (Attr D)) (off : Nat) (a b : List Ln) :
    lnsText m kw attrs off (a ++ b) = lnsText m kw attrs off a ++ lnsText m kw attrs (off + nbVerts m.cells a) b := by
  induction a generalizing off with
  | nil => simp [lnsText, nbVerts]
  | cons l a ih =>
    rw [List.cons_append, lnsText, ih, lnsText]
    simp [nbVerts, Nat.add_assoc]

/-! ## C151 -/

theorem lines_stable [LawfulNum D] [Settled D] {m : Mesh Edge D} (ok : EdgesOk m) (hne : m.cells ≠ []) (hW : Fits m) {opens loops : List Ln}
    (g : Lines m.cells opens loops) (hsv : ∀ v ∈ starts m.cells loops, (listed m.cells (opens ++ loops))[v]? = some v) (hat : writtenPL m.attrs = [])
    {l : Loaded Edge D}
    (hr : loadPL (PLine.headPL m ++ lnsText m (vrtxKeyword m.attrs) (writtenPL m.attrs) 1 (opens ++ loops) ++ [cs!"END"]) = .ok l)
    {m' : Mesh Edge D} (hp : m'.points = l.points) (hc : m'.cells = l.cells) (hat' : writtenPL m'.attrs = []) (hkw : m'.attrs = [] ↔ m.attrs = []) :
    savePL m' = .ok (PLine.headPL m ++ lnsText m (vrtxKeyword m.attrs) (writtenPL m.attrs) 1 (opens ++ loops) ++ [cs!"END"]) := by
  rw [(load_cases ok hne hW g).1 (fun v hv => by rw [← listed_length]; exact (List.getElem?_eq_some_iff.1 (hsv v hv)).1)] at hr
  simp only [Res.ok.injEq] at hr
  subst hr
  simp only at hp hc
  have hst := starts_firsts g hsv
  have ho : ∀ l ∈ opens, l.closed = false ∧ l.hs ≠ [] := fun l hl => ⟨g.opens l hl, (g.chain l (List.mem_append_left _ hl)).2⟩
  have hlenO : ∀ l ∈ opens, (l.verts m.cells).length = nbEdges m.cells l + 1 ∧ 0 < nbEdges m.cells l := by
    intro l hl
    have := open_length (edges := m.cells) (ho l hl).1 (ho l hl).2
    have := List.length_pos_iff.2 (ho l hl).2
    unfold nbEdges
    omega
  have hlenL : ∀ l ∈ loops, (l.verts m.cells).length = nbEdges m.cells l + 1 := by
    intro l hl
    have h1 := ring_verts (g.rings l hl)
    have := List.length_pos_iff.2 (ring_last (g.rings l hl)).1
    unfold nbEdges
    rw [h1, List.length_map]
    omega
  have hks : ∀ k ∈ opens.map (nbEdges m.cells), 0 < k := by
    intro k hk
    obtain ⟨l, hl, rfl⟩ := List.mem_map.1 hk
    exact (hlenO l hl).2
  have htot : ∀ ls : List Ln, (∀ l ∈ ls, (l.verts m.cells).length = nbEdges m.cells l + 1) → total (ls.map (nbEdges m.cells)) = nbVerts m.cells ls := by
    intro ls h
    unfold total nbVerts
    rw [List.map_map]
    congr 1
    apply List.map_congr_left
    intro l hl
    exact (h l hl).symm
  have ht1 := htot opens fun l hl => (hlenO l hl).1
  have ht2 := htot loops hlenL
  have hnb : nbVerts m.cells (opens ++ loops) = nbVerts m.cells opens + nbVerts m.cells loops := by simp [nbVerts]
  have hk : vrtxKeyword m'.attrs = vrtxKeyword m.attrs := by
    unfold vrtxKeyword
    simp only [List.isEmpty_iff, hkw]
  have hL : listed m.cells (opens ++ loops) = listed m.cells opens ++ listed m.cells loops := by simp [listed]
  have hdrop : ((listed m.cells (opens ++ loops)).map fun v => (ptAt m v).round).drop (nbVerts m.cells opens) =
      (listed m.cells loops).map fun v => (ptAt m v).round := by
    rw [hL, List.map_append, List.drop_append_of_le_length (by simp [listed_length])]
    simp [← listed_length]
  rw [save_both (opens.map (nbEdges m.cells)) (loops.map (nbEdges m.cells)) hks
    (by rw [hc, lnsSegs_append, lnsSegs_open 0 ho, Nat.zero_add, ht1, lnsSegs_rings _ g.rings hst])
    (by rw [hp, List.length_map, listed_length, hnb, ht1, ht2]), hk, hat', hat, hp, ht1]
  rw [lnsText_both, lnsText_rings (1 + nbVerts m.cells opens) _ g.rings hst hdrop,
    lnsText_open 1 0 ho (P := (listed m.cells (opens ++ loops)).map fun v => (ptAt m v).round) (rest := (listed m.cells loops).map fun v => (ptAt m v).round)
      (by rw [hL, List.map_append]; rfl)]
  unfold PLine.headPL
  rw [hat, hat']

/-- **C151, curves with loops.**  A curve without properties, with vertices at different points, that has the same segments once saved and loaded is
saved again as the same file. -/
theorem pl_kept_stable [LawfulNum D] [Settled D] {m : Mesh Edge D} (ok : EdgesOk m) (hne : m.cells ≠ []) (hW : Fits m)
    (hd : (m.points.map Pt.round).Nodup) (hk : RoundTrip m) (hat : writtenPL m.attrs = []) {f : File} (hf : savePL m = .ok f) {l : Loaded Edge D}
    (hr : loadPL f = .ok l) {m' : Mesh Edge D} (hp : m'.points = l.points) (hc : m'.cells = l.cells) (hat' : writtenPL m'.attrs = [])
    (hkw : m'.attrs = [] ↔ m.attrs = []) : savePL m' = .ok f := by
  obtain ⟨opens, loops, g, hs, -, h2⟩ := round_trip_iff ok hne hW
  rw [hs] at hf
  simp only [Res.ok.injEq] at hf
  subst hf
  exact lines_stable ok hne hW g (h2 hd hk) hat hr hp hc hat' hkw

/-- The hypotheses hold for a triangle whose first edge is at its first vertex: it is loaded as itself. -/
example : EdgesOk ring3 ∧ ring3.cells ≠ [] ∧ Fits ring3 ∧ (ring3.points.map Pt.round).Nodup ∧ RoundTrip ring3 ∧ writtenPL ring3.attrs = [] :=
  ⟨by unfold EdgesOk; decide, by decide, by unfold Fits; decide, by decide,
    (one_loop_iff (by unfold EdgesOk; decide) (by unfold Fits; decide) ring3_oneLoop rfl).1 rfl, rfl⟩

/-- A triangle, then an edge that ends where it starts, after an open line, numbered in that order. -/
def curve2 : Mesh Edge Int where
  points := [⟨0, 0, 0⟩, ⟨1, 0, 0⟩, ⟨2, 0, 0⟩, ⟨3, 0, 0⟩, ⟨4, 0, 0⟩, ⟨5, 0, 0⟩]
  cells := [(0, 1), (2, 3), (3, 4), (4, 2), (5, 5)]

/-- Test: this curve is saved, loaded and saved again. -/
example : ∃ f, savePL curve2 = .ok f ∧ (loadPL f : Res (Loaded Edge Int)) = .ok
    { name := some cs!"edged_curve_name", points := curve2.points, cells := curve2.cells } := ⟨_, rfl, by decide +kernel⟩

end Verif.Props.PLineStable
