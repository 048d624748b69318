import Verif.Lemmas.LsoLines

/-!
# Corners and lines of `.lso` files

`IsEdge`, `Pass`, `CornerToCorner` and `Along` are stated on the borders, the corners and the vertices of the lines only.
-/

namespace Verif.Props.LsoLines

open Verif.LsoLines Res

/-- `(u, v)` is an edge of the border of one of the surfaces. -/
def IsEdge (borders : List Border) (u v : Nat) : Prop := ∃ b ∈ borders, (u, v) ∈ b.ends

/-- The border of one of the surfaces goes from `u` to `v`, then to `w`. -/
def Pass (borders : List Border) (u v w : Nat) : Prop :=
  ∃ b ∈ borders, ∃ i, b.ends[i]? = some (u, v) ∧ b.ends[b.next i]? = some (v, w)

/-- The line starts and ends at corners, and has no other corner. -/
structure CornerToCorner (corners l : List Nat) : Prop where
  two : 2 ≤ l.length
  first : ∀ a, l.head? = some a → a ∈ corners
  last : ∀ a, l.getLast? = some a → a ∈ corners
  inside : ∀ t ∈ triples l, t.2.1 ∉ corners

/-- Each step of the line is an edge of a border, and each pair of steps follows a border. -/
structure Along (borders : List Border) (l : List Nat) : Prop where
  edges : ∀ p ∈ pairs l, IsEdge borders p.1 p.2
  passes : ∀ t ∈ triples l, Pass borders t.1 t.2.1 t.2.2

theorem run_cons {b : Border} {corners : List Nat} {i : Nat} {r : List Nat} (h : Run b corners i r) :
    ∃ e s, b.ends[i]? = some e ∧ r = e.2 :: s := by
  cases h with
  | stop h _ => exact ⟨_, _, h, rfl⟩
  | go h _ _ => exact ⟨_, _, h, rfl⟩

theorem run_line {b : Border} (h : NextOk b) {borders : List Border} (hb : b ∈ borders) {corners : List Nat} {i : Nat} {r : List Nat}
    (hr : Run b corners i r) : ∀ {e : Nat × Nat}, b.ends[i]? = some e →
    (∀ a, (e.1 :: r).getLast? = some a → a ∈ corners) ∧ (∀ t ∈ triples (e.1 :: r), t.2.1 ∉ corners) ∧ Along borders (e.1 :: r) := by
  induction hr with
  | @stop i e' he' hc =>
    intro e he
    rw [he'] at he
    cases he
    refine ⟨?_, ?_, ?_, ?_⟩
    · intro a ha
      cases ha
      exact hc
    · intro t ht
      cases ht
    · intro p hp
      rcases List.mem_cons.1 hp with rfl | hp
      · exact ⟨b, hb, List.mem_of_getElem? he'⟩
      · cases hp
    · intro t ht
      cases ht
  | @go i e' r he' hc hr ih =>
    intro e he
    rw [he'] at he
    cases he
    obtain ⟨f, s, hf, rfl⟩ := run_cons hr
    have hm := h.meets _ _ _ he' hf
    obtain ⟨h1, h2, h3, h4⟩ := ih hf
    rw [hm] at h1 h2 h3 h4
    refine ⟨?_, ?_, ?_, ?_⟩
    · intro a ha
      exact h1 a (by rw [List.getLast?_cons_cons] at ha; exact ha)
    · intro t ht
      rcases List.mem_cons.1 ht with rfl | ht
      · exact hc
      · exact h2 t ht
    · intro p hp
      rcases List.mem_cons.1 hp with rfl | hp
      · exact ⟨b, hb, List.mem_of_getElem? he'⟩
      · exact h3 p hp
    · intro t ht
      rcases List.mem_cons.1 ht with rfl | ht
      · exact ⟨b, hb, i, he', by rw [hf, ← hm]⟩
      · exact h4 t ht

/-- A line made from the border of one of the surfaces, starting with the given edge. -/
def Made (borders : List Border) (corners : List Nat) (l : List Nat) : Prop :=
  ∃ b ∈ borders, ∃ i e r, b.ends[i]? = some e ∧ e.1 ∈ corners ∧ Run b corners i r ∧ l = e.1 :: r

theorem made_spec {borders : List Border} (h : ∀ b ∈ borders, NextOk b) {corners l : List Nat} (hm : Made borders corners l) :
    CornerToCorner corners l ∧ Along borders l := by
  obtain ⟨b, hb, i, e, r, he, hc, hr, rfl⟩ := hm
  obtain ⟨h1, h2, h3⟩ := run_line (h b hb) hb hr he
  obtain ⟨_, s, _, rfl⟩ := run_cons hr
  exact ⟨⟨by simp, fun a ha => by cases ha; exact hc, h1, h2⟩, h3⟩

theorem onLine_iff {l : List Nat} {u v : Nat} : onLine l (u, v) = true ↔ (u, v) ∈ pairs l ∨ (v, u) ∈ pairs l := by
  simp [onLine]

/-! ## The state of the loops -/

/-- Lines built so far: each is made from a border, and its first edge was not on an earlier line. -/
structure Inv (borders : List Border) (corners : List Nat) (lines : List (List Nat)) : Prop where
  made : ∀ l ∈ lines, Made borders corners l
  fresh : ∀ (j k : Nat) (l m : List Nat) (a c : Nat) (r : List Nat), j < k → lines[j]? = some l → lines[k]? = some m → m = a :: c :: r →
    onLine l (a, c) = false

theorem commonLine_none {lines : List (List Nat)} {e : Nat × Nat} (h : commonLine lines e = none) : ∀ l ∈ lines, onLine l e = false := by
  intro l hl
  have := List.findIdx?_eq_none_iff.1 h l hl
  simpa using this

theorem commonLine_some {lines : List (List Nat)} {e : Nat × Nat} {k : Nat} (h : commonLine lines e = some k) :
    ∃ l, lines[k]? = some l ∧ onLine l e = true ∧ ∀ j m, j < k → lines[j]? = some m → onLine m e = false := by
  obtain ⟨hk, h1, h2⟩ := List.findIdx?_eq_some_iff_getElem.1 h
  refine ⟨lines[k], List.getElem?_eq_getElem hk, h1, ?_⟩
  intro j m hj hm
  obtain ⟨hj', rfl⟩ := List.getElem?_eq_some_iff.1 hm
  simpa using h2 j hj

theorem commonLine_append {lines more : List (List Nat)} {e : Nat × Nat} {k : Nat} (h : commonLine lines e = some k) :
    commonLine (lines ++ more) e = some k := by
  unfold commonLine at *
  rw [List.findIdx?_append, h]
  rfl

theorem commonLine_new {lines : List (List Nat)} {e : Nat × Nat} {l : List Nat} (h : commonLine lines e = none) (hl : onLine l e = true) :
    commonLine (lines ++ [l]) e = some lines.length := by
  unfold commonLine at *
  rw [List.findIdx?_append, h]
  simp [List.findIdx?_cons, hl]

theorem inv_snoc {borders : List Border} {corners : List Nat} {lines : List (List Nat)} (h : Inv borders corners lines) {a c : Nat} {r : List Nat}
    (hm : Made borders corners (a :: c :: r)) (hn : commonLine lines (a, c) = none) : Inv borders corners (lines ++ [a :: c :: r]) := by
  refine ⟨?_, ?_⟩
  · intro l hl
    rcases List.mem_append.1 hl with hl | hl
    · exact h.made l hl
    · rw [List.mem_singleton.1 hl]
      exact hm
  · intro j k l m a' c' r' hjk hj hk e
    have hk2 : k < (lines ++ [a :: c :: r]).length := (List.getElem?_eq_some_iff.1 hk).1
    rw [List.length_append, List.length_singleton] at hk2
    rw [List.getElem?_append_left (by omega)] at hj
    by_cases hkl : k < lines.length
    · rw [List.getElem?_append_left hkl] at hk
      exact h.fresh j k l m a' c' r' hjk hj hk e
    · have : k = lines.length := by omega
      subst this
      rw [List.getElem?_append_right (Nat.le_refl _), Nat.sub_self] at hk
      simp only [List.getElem?_cons_zero, Option.some.injEq] at hk
      subst hk
      cases e
      exact commonLine_none hn l (List.mem_of_getElem? hj)

/-- What one border edge does: it never fails, and when it starts at a corner its line is counted. -/
theorem edgeStep_ok {borders : List Border} {b : Border} (hb : b ∈ borders) (h : NextOk b) {corners : List Nat} {st : State}
    (hi : Inv borders corners st.lines) {i : Nat} {e : Nat × Nat} (he : b.ends[i]? = some e) :
    ∃ st' more, edgeStep b corners st i = .ok st' ∧ st'.lines = st.lines ++ more ∧ Inv borders corners st'.lines ∧
      (e.1 ∈ corners → ∃ k, commonLine st'.lines e = some k ∧ st'.hits = st.hits ++ [k]) ∧ (e.1 ∉ corners → st'.hits = st.hits) := by
  unfold edgeStep
  rw [Res.index_eq_ok.2 he, Res.ok_bind]
  by_cases hc : e.1 ∈ corners
  · rw [if_pos (by simpa using hc)]
    cases hl : commonLine st.lines e with
    | some k => exact ⟨_, [], rfl, by simp, hi, fun _ => ⟨k, hl, rfl⟩, fun hn => absurd hc hn⟩
    | none =>
      obtain ⟨r, hbl, hr⟩ := buildLine_ok h he hc
      obtain ⟨e', s, he', rfl⟩ := run_cons hr
      have hee : e' = e := by rw [he] at he'; injection he' with he'; exact he'.symm
      subst hee
      have hon : onLine (e'.1 :: e'.2 :: s) e' = true := by simp [onLine, pairs]
      refine ⟨{ lines := st.lines ++ [e'.1 :: e'.2 :: s], hits := st.hits ++ [st.lines.length] }, [e'.1 :: e'.2 :: s], by simp only [hbl, Res.ok_bind, Res.pure_eq], rfl,
        inv_snoc hi ⟨b, hb, i, e', _, he, hc, hr, rfl⟩ hl, fun _ => ⟨_, commonLine_new hl hon, rfl⟩, fun hn => absurd hc hn⟩
  · rw [if_neg (by simpa using hc)]
    exact ⟨_, [], rfl, by simp, hi, fun hn => absurd hn hc, fun _ => rfl⟩

/-- The lines counted for a surface: those of its border edges that start at a corner. -/
def counted (corners : List Nat) (lines : List (List Nat)) (b : Border) : List Nat :=
  (b.ends.filter fun e => corners.contains e.1).filterMap (commonLine lines)

theorem edges_ok {borders : List Border} {b : Border} (hb : b ∈ borders) (h : NextOk b) {corners : List Nat} : ∀ (n : Nat), n ≤ b.ends.length →
    ∀ {st : State}, Inv borders corners st.lines →
    ∃ st' more, Res.foldM' (edgeStep b corners) st (List.range n) = .ok st' ∧ st'.lines = st.lines ++ more ∧ Inv borders corners st'.lines ∧
      (∀ e ∈ b.ends.take n, e.1 ∈ corners → ∃ k, commonLine st'.lines e = some k) ∧
      st'.hits = st.hits ++ counted corners st'.lines { b with ends := b.ends.take n } := by
  intro n
  induction n with
  | zero =>
    intro _ st hi
    exact ⟨st, [], rfl, by simp, hi, by simp, by simp [counted]⟩
  | succ n ih =>
    intro hn st hi
    obtain ⟨s1, m1, e1, l1, i1, c1, k1⟩ := ih (by omega) hi
    have he : b.ends[n]? = some (b.ends[n]'(by omega)) := List.getElem?_eq_getElem _
    obtain ⟨s2, m2, e2, l2, i2, k2⟩ := edgeStep_ok hb h i1 he
    have hcov : ∀ e ∈ b.ends.take n, e.1 ∈ corners → ∃ k, commonLine s1.lines e = some k ∧ commonLine s2.lines e = some k := by
      intro e hem hec
      obtain ⟨k, hk⟩ := c1 e hem hec
      exact ⟨k, hk, by rw [l2]; exact commonLine_append hk⟩
    have htake : b.ends.take (n + 1) = b.ends.take n ++ [b.ends[n]'(by omega)] := by rw [List.take_succ, he]; rfl
    have hsame : counted corners s2.lines { b with ends := b.ends.take n } = counted corners s1.lines { b with ends := b.ends.take n } := by
      unfold counted
      refine List.filterMap_congr ?_
      intro e hem
      obtain ⟨hem, hec⟩ := List.mem_filter.1 hem
      obtain ⟨k, ha, hb⟩ := hcov e hem (by simpa using hec)
      rw [ha, hb]
    refine ⟨s2, m1 ++ m2, ?_, by rw [l2, l1, List.append_assoc], i2, ?_, ?_⟩
    · rw [List.range_succ, Res.foldM'_append, e1, Res.ok_bind, Res.foldM'_cons, e2]
      rfl
    · intro e hem hec
      rw [htake] at hem
      rcases List.mem_append.1 hem with hem | hem
      · obtain ⟨k, _, hk⟩ := hcov e hem hec
        exact ⟨k, hk⟩
      · rw [List.mem_singleton.1 hem] at hec ⊢
        obtain ⟨k, hk, _⟩ := k2.1 hec
        exact ⟨k, hk⟩
    · have happ : counted corners s2.lines { b with ends := b.ends.take (n + 1) } =
          counted corners s2.lines { b with ends := b.ends.take n } ++ counted corners s2.lines { b with ends := [b.ends[n]'(by omega)] } := by
        unfold counted
        rw [htake, List.filter_append, List.filterMap_append]
      rw [happ, hsame, ← List.append_assoc, ← k1]
      by_cases hec : (b.ends[n]'(by omega)).1 ∈ corners
      · obtain ⟨k, hk, hh⟩ := k2.1 hec
        rw [hh]
        simp [counted, hec, hk]
      · rw [k2.2 hec]
        simp [counted, hec]

/-- The number of border edges of a surface that start at a corner and lie on line `k`. -/
def passages (corners : List Nat) (lines : List (List Nat)) (b : Border) (k : Nat) : Nat :=
  (b.ends.filter fun e => decide (e.1 ∈ corners) && decide (commonLine lines e = some k)).length

theorem counted_count (corners : List Nat) (lines : List (List Nat)) (b : Border) (k : Nat) :
    (counted corners lines b).count k = passages corners lines b k := by
  unfold counted passages
  induction b.ends with
  | nil => rfl
  | cons e es ih =>
    by_cases hc : e.1 ∈ corners
    · rw [List.filter_cons_of_pos (by simpa using hc)]
      cases hl : commonLine lines e with
      | none =>
        rw [List.filterMap_cons_none hl, ih, List.filter_cons_of_neg (by simp [hl])]
      | some j =>
        rw [List.filterMap_cons_some hl]
        by_cases hj : j = k
        · subst hj
          rw [List.count_cons_self, ih, List.filter_cons_of_pos (by simp [hl, hc])]
          rfl
        · rw [List.count_cons_of_ne hj, ih, List.filter_cons_of_neg (by simp [hl, hj])]
    · rw [List.filter_cons_of_neg (by simpa using hc), ih, List.filter_cons_of_neg (by simp [hc])]

/-- The relations of a surface with the lines are those its border says. -/
structure Related (corners : List Nat) (lines : List (List Nat)) (b : Border) (r : Relations) : Prop where
  covered : ∀ e ∈ b.ends, e.1 ∈ corners → ∃ k, commonLine lines e = some k
  boundary : ∀ k, k ∈ r.boundaries ↔ passages corners lines b k = 1
  internal : ∀ k, k ∈ r.internals ↔ passages corners lines b k = 2
  most : ∀ k, passages corners lines b k ≤ 2

theorem passages_append {corners : List Nat} {lines : List (List Nat)} {b : Border} (h : ∀ e ∈ b.ends, e.1 ∈ corners → ∃ k, commonLine lines e = some k)
    (more : List (List Nat)) (k : Nat) : passages corners (lines ++ more) b k = passages corners lines b k := by
  unfold passages
  congr 1
  refine List.filter_congr ?_
  intro e he
  by_cases hc : e.1 ∈ corners
  · obtain ⟨j, hj⟩ := h e he hc
    rw [hj, commonLine_append hj]
  · simp [hc]

theorem related_append {corners : List Nat} {lines : List (List Nat)} {b : Border} {r : Relations} (h : Related corners lines b r)
    (more : List (List Nat)) : Related corners (lines ++ more) b r := by
  refine ⟨?_, ?_, ?_, ?_⟩
  · intro e he hc
    obtain ⟨k, hk⟩ := h.covered e he hc
    exact ⟨k, commonLine_append hk⟩
  · intro k; rw [passages_append h.covered]; exact h.boundary k
  · intro k; rw [passages_append h.covered]; exact h.internal k
  · intro k; rw [passages_append h.covered]; exact h.most k

theorem passages_lt {corners : List Nat} {lines : List (List Nat)} {b : Border} {k : Nat} (h : 0 < passages corners lines b k) : k < lines.length := by
  obtain ⟨e, he⟩ := List.exists_mem_of_length_pos h
  have := (List.mem_filter.1 he).2
  simp only [Bool.and_eq_true, decide_eq_true_eq] at this
  obtain ⟨l, hl, _⟩ := commonLine_some this.2
  exact (List.getElem?_eq_some_iff.1 hl).1

theorem surfaceLines_ok {borders : List Border} {b : Border} (hb : b ∈ borders) (h : NextOk b) {corners : List Nat} {lines : List (List Nat)}
    {rels : List Relations} (hi : Inv borders corners lines) :
    (surfaceLines corners (lines, rels) b = .throw ∧ ∃ lines' k, Inv borders corners lines' ∧ 2 < passages corners lines' b k) ∨
    ∃ more r, surfaceLines corners (lines, rels) b = .ok (lines ++ more, rels ++ [r]) ∧ Inv borders corners (lines ++ more) ∧
      Related corners (lines ++ more) b r := by
  obtain ⟨s, more, hs, hl, hinv, hcov, hh⟩ := edges_ok hb h b.ends.length (Nat.le_refl _) (st := { lines := lines }) hi
  rw [List.take_length] at hcov hh
  have hh : s.hits = counted corners s.lines b := by simpa using hh
  have hl : s.lines = lines ++ more := hl
  unfold surfaceLines
  rw [hs, Res.ok_bind]
  unfold lineRelations
  have hcount : ∀ k, s.hits.count k = passages corners s.lines b k := fun k => by rw [hh, counted_count]
  by_cases hany : ((List.range s.lines.length).any fun k => decide (2 < s.hits.count k)) = true
  · left
    rw [if_pos hany]
    obtain ⟨k, _, hk⟩ := List.any_eq_true.1 hany
    exact ⟨rfl, s.lines, k, hinv, by rw [← hcount]; simpa using hk⟩
  · right
    rw [if_neg hany]
    refine ⟨more, _, by rw [Res.ok_bind, hl]; rfl, hl ▸ hinv, ?_⟩
    rw [← hl]
    have hmem : ∀ k n, 0 < n → (k ∈ (List.range s.lines.length).filter (fun k => decide (s.hits.count k = n)) ↔ passages corners s.lines b k = n) := by
      intro k n hn
      rw [List.mem_filter, hcount]
      constructor
      · exact fun e => by simpa using e.2
      · exact fun e => ⟨List.mem_range.2 (passages_lt (corners := corners) (b := b) (by rw [e]; exact hn)), by simpa using e⟩
    refine ⟨hcov, fun k => hmem k 1 (by omega), fun k => hmem k 2 (by omega), ?_⟩
    intro k
    by_contra hne
    refine hany (List.any_eq_true.2 ⟨k, List.mem_range.2 (passages_lt (by omega : 0 < passages corners s.lines b k)), ?_⟩)
    rw [hcount]
    simpa using hne

theorem surfaces_ok {borders : List Border} (h : ∀ b ∈ borders, NextOk b) {corners : List Nat} : ∀ (bs : List Border), (∀ b ∈ bs, b ∈ borders) →
    ∀ {lines : List (List Nat)} {rels : List Relations}, Inv borders corners lines →
    (Res.foldM' (surfaceLines corners) (lines, rels) bs = .throw ∧ ∃ b ∈ bs, ∃ lines' k, Inv borders corners lines' ∧ 2 < passages corners lines' b k) ∨
    ∃ more rs, Res.foldM' (surfaceLines corners) (lines, rels) bs = .ok (lines ++ more, rels ++ rs) ∧ Inv borders corners (lines ++ more) ∧
      List.Forall₂ (Related corners (lines ++ more)) bs rs := by
  intro bs
  induction bs with
  | nil =>
    intro _ lines rels hi
    exact .inr ⟨[], [], by simp, by simpa using hi, .nil⟩
  | cons b bs ih =>
    intro hbs lines rels hi
    rw [Res.foldM'_cons]
    rcases surfaceLines_ok (rels := rels) (hbs b (by simp)) (h b (hbs b (by simp))) hi with ⟨e, l', k, h1, h2⟩ | ⟨more, r, e, hi', hr⟩
    · rw [e]
      exact .inl ⟨rfl, b, by simp, l', k, h1, h2⟩
    · rw [e, Res.ok_bind]
      rcases ih (fun c hc => hbs c (by simp [hc])) (rels := rels ++ [r]) hi' with ⟨e2, c, hc, l', k, h1, h2⟩ | ⟨more2, rs, e2, hi2, hf⟩
      · exact .inl ⟨e2, c, by simp [hc], l', k, h1, h2⟩
      · refine .inr ⟨more ++ more2, r :: rs, by rw [e2]; simp, by rw [← List.append_assoc]; exact hi2, ?_⟩
        rw [← List.append_assoc]
        exact .cons (related_append hr _) hf

/-- What `buildLines` does on every borders. -/
theorem buildLines_spec {borders : List Border} (h : ∀ b ∈ borders, NextOk b) (corners : List Nat) :
    (buildLines corners borders = .throw ∧ ∃ b ∈ borders, ∃ lines k, Inv borders corners lines ∧ 2 < passages corners lines b k) ∨
    ∃ lines rs, buildLines corners borders = .ok (lines, rs) ∧ Inv borders corners lines ∧ List.Forall₂ (Related corners lines) borders rs := by
  have hi : Inv borders corners [] := ⟨by simp, by intro j k l m a c r hjk hj; simp at hj⟩
  rcases surfaces_ok h borders (fun _ hb => hb) (rels := []) hi with ⟨e, hx⟩ | ⟨more, rs, e, hi, hf⟩
  · exact .inl ⟨e, hx⟩
  · exact .inr ⟨more, rs, by unfold buildLines; simpa using e, by simpa using hi, by simpa using hf⟩

/-! ## The properties -/

/-- Loading never runs for ever nor has undefined behaviour while it builds the lines. -/
theorem lines_end {borders : List Border} (h : ∀ b ∈ borders, NextOk b) (around : Nat → List Nat) :
    topology around borders = .throw ∨ ∃ t, topology around borders = .ok t := by
  unfold topology
  rcases buildLines_spec h (buildCorners around borders) with ⟨e, _⟩ | ⟨lines, rs, e, _, _⟩
  · exact .inl (by simp only [e]; rfl)
  · exact .inr ⟨{ corners := buildCorners around borders, lines, relations := rs }, by simp only [e, Res.ok_bind, Res.pure_eq]⟩

theorem topology_spec {borders : List Border} (h : ∀ b ∈ borders, NextOk b) {around : Nat → List Nat} {t : Topology}
    (ht : topology around borders = .ok t) :
    t.corners = buildCorners around borders ∧ Inv borders t.corners t.lines ∧ List.Forall₂ (Related t.corners t.lines) borders t.relations := by
  unfold topology at ht
  rcases buildLines_spec h (buildCorners around borders) with ⟨e, _⟩ | ⟨lines, rs, e, hi, hf⟩
  · simp only [e] at ht
    cases ht
  · simp only [e, Res.ok_bind, Res.pure_eq] at ht
    cases ht
    exact ⟨rfl, hi, hf⟩

/-- Every line starts and ends at corners, has no corner inside, and follows the borders of the surfaces. -/
theorem lines_corner_to_corner {borders : List Border} (h : ∀ b ∈ borders, NextOk b) {around : Nat → List Nat} {t : Topology}
    (ht : topology around borders = .ok t) : ∀ l ∈ t.lines, CornerToCorner t.corners l ∧ Along borders l := by
  intro l hl
  exact made_spec h ((topology_spec h ht).2.1.made l hl)

/-- A line is a boundary of the surfaces whose border passes along it once, and is internal to those whose border passes twice.  Each border
edge that starts at a corner counts for the line it lies on. -/
theorem line_relations {borders : List Border} (h : ∀ b ∈ borders, NextOk b) {around : Nat → List Nat} {t : Topology}
    (ht : topology around borders = .ok t) :
    List.Forall₂ (fun b r => ∀ k, (k ∈ r.boundaries ↔ passages t.corners t.lines b k = 1) ∧ (k ∈ r.internals ↔ passages t.corners t.lines b k = 2) ∧
      passages t.corners t.lines b k ≤ 2) borders t.relations :=
  (topology_spec h ht).2.2.imp fun _ _ hr k => ⟨hr.boundary k, hr.internal k, hr.most k⟩

/-- Where a border goes through a vertex that is not a corner, all the borders that go through it follow the same two edges. -/
def Consistent (borders : List Border) (corners : List Nat) : Prop :=
  ∀ u v w x y, v ∉ corners → Pass borders u v w → Pass borders x v y → (u = x ∧ w = y) ∨ (u = y ∧ w = x)

/-- A line that has an edge to a vertex that is not a corner has all the edges of the borders that follow. -/
theorem line_follows {borders : List Border} {corners : List Nat} (hcon : Consistent borders corners) {l : List Nat}
    (h1 : CornerToCorner corners l) (h2 : Along borders l) {u v w : Nat} (hv : v ∉ corners) (hp : Pass borders u v w) :
    onLine l (u, v) = true ↔ onLine l (v, w) = true := by
  have key : ∀ {a}, onLine l (a, v) = true → ∃ x y, (x, v, y) ∈ triples l := by
    intro a ha
    rcases onLine_iff.1 ha with ha | ha
    · obtain ⟨y, hy⟩ := pair_before hv h1.last ha
      exact ⟨a, y, hy⟩
    · obtain ⟨x, hx⟩ := pair_after hv h1.first ha
      exact ⟨x, a, hx⟩
  have both : ∀ {x y}, (x, v, y) ∈ triples l → onLine l (u, v) = true ∧ onLine l (v, w) = true := by
    intro x y ht
    obtain ⟨ha, hb⟩ := triples_pairs ht
    rcases hcon u v w x y hv hp (h2.passes _ ht) with ⟨rfl, rfl⟩ | ⟨rfl, rfl⟩
    · exact ⟨onLine_iff.2 (.inl ha), onLine_iff.2 (.inl hb)⟩
    · exact ⟨onLine_iff.2 (.inr hb), onLine_iff.2 (.inr ha)⟩
  have swap : onLine l (v, w) = true → onLine l (w, v) = true := fun hh => onLine_iff.2 (onLine_iff.1 hh).symm
  constructor
  · intro hh
    obtain ⟨x, y, ht⟩ := key hh
    exact (both ht).2
  · intro hh
    obtain ⟨x, y, ht⟩ := key (swap hh)
    exact (both ht).1

/-- The loop of border edges of `i` has a corner. -/
def LoopHasCorner (corners : List Nat) (b : Border) (i : Nat) : Prop := ∃ k e, b.ends[steps b k i]? = some e ∧ e.1 ∈ corners

/-- From any edge whose loop has a corner, going backwards leads to a corner. -/
theorem corner_behind {b : Border} (h : NextOk b) {corners : List Nat} {i : Nat} (hi : i < b.ends.length) (hl : LoopHasCorner corners b i) :
    ∃ s k e, steps b k s = i ∧ b.ends[s]? = some e ∧ e.1 ∈ corners ∧ ∀ m, 0 < m → m ≤ k → ∀ f, b.ends[steps b m s]? = some f → f.1 ∉ corners := by
  have hex : ∃ k s e, s < b.ends.length ∧ steps b k s = i ∧ b.ends[s]? = some e ∧ e.1 ∈ corners := by
    obtain ⟨k, e, he, hc⟩ := hl
    obtain ⟨n, hn, _, hr⟩ := steps_return h hi
    have hmul : ∀ m, steps b (m * n) i = i := by
      intro m
      induction m with
      | zero => rw [Nat.zero_mul]; rfl
      | succ m ih => rw [Nat.succ_mul, steps_add, hr, ih]
    have hle : k ≤ k * n := Nat.le_mul_of_pos_right k hn
    refine ⟨k * n - k, steps b k i, e, steps_lt h hi k, ?_, he, hc⟩
    rw [← steps_add, Nat.sub_add_cancel hle]
    exact hmul k
  obtain ⟨k, hk⟩ := hex
  induction k using Nat.strongRecOn with
  | ind k ih =>
    obtain ⟨s, e, hs, hst, he, hc⟩ := hk
    by_cases hall : ∀ m, 0 < m → m ≤ k → ∀ f, b.ends[steps b m s]? = some f → f.1 ∉ corners
    · exact ⟨s, k, e, hst, he, hc, hall⟩
    · simp only [not_forall, not_not] at hall
      obtain ⟨m, hm0, hmk, f, hf, hfc⟩ := hall
      refine ih (k - m) (by omega) ⟨steps b m s, f, steps_lt h hs m, ?_, hf, hfc⟩
      rw [← steps_add, Nat.sub_add_cancel hmk]
      exact hst

/-- Every border edge that starts at a corner is an edge of a line. -/
theorem corner_edges_covered {borders : List Border} (h : ∀ b ∈ borders, NextOk b) {around : Nat → List Nat} {t : Topology}
    (ht : topology around borders = .ok t) {b : Border} (hb : b ∈ borders) {e : Nat × Nat} (he : e ∈ b.ends) (hc : e.1 ∈ t.corners) :
    ∃ l ∈ t.lines, onLine l e = true := by
  have hf := (topology_spec h ht).2.2
  have : ∀ {bs : List Border} {rs : List Relations}, List.Forall₂ (Related t.corners t.lines) bs rs → b ∈ bs → ∃ r, Related t.corners t.lines b r := by
    intro bs rs hf
    induction hf with
    | nil => intro hm; cases hm
    | cons hr _ ih =>
      intro hm
      rcases List.mem_cons.1 hm with rfl | hm
      · exact ⟨_, hr⟩
      · exact ih hm
  obtain ⟨r, hr⟩ := this hf hb
  obtain ⟨k, hk⟩ := hr.covered e he hc
  obtain ⟨l, hl, ho, _⟩ := commonLine_some hk
  exact ⟨l, List.mem_of_getElem? hl, ho⟩

/-- The borders are covered: every edge of a border loop that has a corner is an edge of a line.  Partial: loops without corner have no line, see
`loop_without_corner`. -/
theorem borders_covered_partial {borders : List Border} (h : ∀ b ∈ borders, NextOk b) {around : Nat → List Nat} {t : Topology}
    (ht : topology around borders = .ok t) (hcon : Consistent borders t.corners) {b : Border} (hb : b ∈ borders) {i : Nat} {e : Nat × Nat}
    (he : b.ends[i]? = some e) (hl : LoopHasCorner t.corners b i) : ∃ l ∈ t.lines, onLine l e = true := by
  obtain ⟨hi, _⟩ := List.getElem?_eq_some_iff.1 he
  obtain ⟨s, k, f, hs, hf, hc, hno⟩ := corner_behind (h b hb) hi hl
  have hs' : s < b.ends.length := (List.getElem?_eq_some_iff.1 hf).1
  obtain ⟨l, hlm, ho⟩ := corner_edges_covered h ht hb (List.mem_of_getElem? hf) hc
  obtain ⟨h1, h2⟩ := lines_corner_to_corner h ht l hlm
  refine ⟨l, hlm, ?_⟩
  have : ∀ m, m ≤ k → ∀ g, b.ends[steps b m s]? = some g → onLine l g = true := by
    intro m
    induction m with
    | zero =>
      intro _ g hg
      have hg : b.ends[s]? = some g := hg
      rw [hf] at hg
      cases hg
      exact ho
    | succ m ih =>
      intro hm g hg
      have hlt := steps_lt (h b hb) hs' m
      have hp := List.getElem?_eq_getElem hlt
      have hprev := ih (by omega) _ hp
      have hmeet := (h b hb).meets _ _ _ hp hg
      have hnc := hno (m + 1) (by omega) hm g hg
      have hpass : Pass borders (b.ends[steps b m s]'hlt).1 g.1 g.2 := ⟨b, hb, steps b m s, by rw [hp, hmeet], hg⟩
      refine (line_follows hcon h1 h2 hnc hpass).1 ?_
      rw [hmeet]
      exact hprev
  exact this k (Nat.le_refl _) e (by rw [hs]; exact he)

/-- No edge belongs to two lines. -/
theorem lines_disjoint_partial {borders : List Border} (h : ∀ b ∈ borders, NextOk b) {around : Nat → List Nat} {t : Topology}
    (ht : topology around borders = .ok t) (hcon : Consistent borders t.corners) {j k : Nat} {l m : List Nat} (hj : t.lines[j]? = some l)
    (hk : t.lines[k]? = some m) {e : Nat × Nat} (h1 : onLine l e = true) (h2 : onLine m e = true) : j = k := by
  have hinv := (topology_spec h ht).2.1
  have key : ∀ {j k : Nat} {l m : List Nat}, t.lines[j]? = some l → t.lines[k]? = some m → onLine l e = true → onLine m e = true → ¬ j < k := by
    intro j k l m hj hk h1 h2 hjk
    obtain ⟨c1, a1⟩ := lines_corner_to_corner h ht l (List.mem_of_getElem? hj)
    obtain ⟨c2, a2⟩ := lines_corner_to_corner h ht m (List.mem_of_getElem? hk)
    match m, c2.two with
    | a :: c :: r, _ =>
      have hfalse := hinv.fresh j k l _ a c r hjk hj hk rfl
      suffices hs : ∀ (r : List Nat) (a c : Nat), (∀ t' ∈ triples (a :: c :: r), t'.2.1 ∉ t.corners ∧ Pass borders t'.1 t'.2.1 t'.2.2) →
          ∀ p ∈ pairs (a :: c :: r), onLine l p = true → onLine l (a, c) = true by
        have h1' : onLine l (e.2, e.1) = true := onLine_iff.2 (onLine_iff.1 h1).symm
        have hr := hs r a c (fun t' ht' => ⟨c2.inside t' ht', a2.passes t' ht'⟩)
        rcases onLine_iff.1 h2 with hp | hp
        · rw [hr _ hp h1] at hfalse
          cases hfalse
        · rw [hr _ hp h1'] at hfalse
          cases hfalse
      intro r
      induction r with
      | nil =>
        intro a c _ p hp ho
        rcases List.mem_cons.1 hp with rfl | hp
        · exact ho
        · cases hp
      | cons d r ih =>
        intro a c ht' p hp ho
        rcases List.mem_cons.1 hp with rfl | hp
        · exact ho
        · have := ih c d (fun t' hh => ht' t' (List.mem_cons_of_mem _ hh)) p hp ho
          obtain ⟨hn, hpass⟩ := ht' (a, c, d) (List.mem_cons_self ..)
          exact (line_follows hcon c1 a1 hn hpass).2 this
  rcases Nat.lt_trichotomy j k with hlt | rfl | hlt
  · exact absurd hlt (key hj hk h1 h2)
  · rfl
  · exact absurd hlt (key hk hj h2 h1)

/-! ## Corners -/

theorem createCorner_mem {cs : List Nat} {u v : Nat} : v ∈ createCorner cs u ↔ v ∈ cs ∨ v = u := by
  unfold createCorner
  by_cases h : cs.contains u = true
  · rw [if_pos h]
    have h : u ∈ cs := by simpa using h
    exact ⟨.inl, fun hh => hh.elim id fun e => e ▸ h⟩
  · rw [if_neg h]
    simp

theorem corners_mem (us : List Nat) : ∀ (cs : List Nat) (v : Nat), v ∈ us.foldl createCorner cs ↔ v ∈ cs ∨ v ∈ us := by
  induction us with
  | nil => intro cs v; simp
  | cons u us ih =>
    intro cs v
    rw [List.foldl_cons, ih, createCorner_mem, List.mem_cons, or_assoc]

theorem buildCorners_mem {around : Nat → List Nat} {borders : List Border} {u : Nat} :
    u ∈ buildCorners around borders ↔ ∃ v w, IsEdge borders v w ∧ u ∈ edgeCorners around (v, w) := by
  unfold buildCorners
  rw [corners_mem]
  simp only [List.not_mem_nil, false_or, List.mem_flatMap]
  constructor
  · rintro ⟨⟨v, w⟩, ⟨b, hb, he⟩, hu⟩
    exact ⟨v, w, ⟨b, hb, he⟩, hu⟩
  · rintro ⟨v, w, ⟨b, hb, he⟩, hu⟩
    exact ⟨(v, w), ⟨b, hb, he⟩, hu⟩

/-- There is at most one corner at a vertex. -/
theorem corners_nodup (around : Nat → List Nat) (borders : List Border) : (buildCorners around borders).Nodup := by
  have : ∀ (us cs : List Nat), cs.Nodup → (us.foldl createCorner cs).Nodup := by
    intro us
    induction us with
    | nil => intro cs h; exact h
    | cons u us ih =>
      intro cs h
      refine ih _ ?_
      unfold createCorner
      by_cases hc : cs.contains u = true
      · rw [if_pos hc]; exact h
      · rw [if_neg hc]
        refine List.Nodup.append h (List.nodup_singleton _) ?_
        intro a ha hb
        rw [List.mem_singleton.1 hb] at ha
        exact hc (by simpa using ha)
  exact this _ _ List.nodup_nil

/-- A corner is at the end of a border edge whose two ends do not have the same vertices of surfaces. -/
theorem corner_reason {around : Nat → List Nat} {borders : List Border} {u : Nat} (hu : u ∈ buildCorners around borders) :
    ∃ v w, IsEdge borders v w ∧ (u = v ∨ u = w) ∧ ¬ (around v).Perm (around w) := by
  obtain ⟨v, w, he, hu⟩ := buildCorners_mem.1 hu
  refine ⟨v, w, he, ?_, ?_⟩
  · unfold edgeCorners at hu
    split at hu
    · exact .inl (List.mem_singleton.1 hu)
    · split at hu
      · exact .inr (List.mem_singleton.1 hu)
      · split at hu
        · cases hu
        · simpa using hu
  · intro hp
    unfold edgeCorners at hu
    rw [if_neg (by simp [hp.length_eq]), if_neg (by simp [hp.length_eq]), if_pos] at hu
    · cases hu
    · refine List.all_eq_true.2 fun a ha => ?_
      simpa using hp.subset ha

/-- Full statement: where the surfaces around a border change, there is a corner. -/
def CornersWhereSurfacesChange (around : Nat → List Nat) (borders : List Border) : Prop :=
  ∀ v w, IsEdge borders v w → (∃ s, ¬ (s ∈ around v ↔ s ∈ around w)) → v ∈ buildCorners around borders ∨ w ∈ buildCorners around borders

/-- It holds when no surface has two vertices at the same place. -/
theorem corners_where_surfaces_change_partial {around : Nat → List Nat} {borders : List Border} (hn : ∀ v, (around v).Nodup) :
    CornersWhereSurfacesChange around borders := by
  intro v w he hs
  have hmem : ∀ u, u ∈ edgeCorners around (v, w) → u ∈ buildCorners around borders := fun u hu => buildCorners_mem.2 ⟨v, w, he, hu⟩
  unfold edgeCorners at hmem
  split at hmem
  · exact .inl (hmem v (by simp))
  · split at hmem
    · exact .inr (hmem w (by simp))
    · rename_i h1 h2
      split at hmem
      · rename_i h3
        exfalso
        have hsub : around v ⊆ around w := by
          intro a ha
          simpa using List.all_eq_true.1 h3 a ha
        have hp : (around v).Perm (around w) := by
          refine (List.subperm_of_subset (hn v) hsub).perm_of_length_le ?_
          exact Nat.le_of_not_lt h2
        obtain ⟨s, hs⟩ := hs
        exact hs hp.mem_iff
      · exact .inl (hmem v (by simp))

/-- It does not hold in general: the comparison of the surfaces is one-sided.  Surface 0 has two vertices at 1; at 2 are surfaces 0 and 1.
The edge from 1 to 2 makes no corner, the edge from 2 to 1 makes two. -/
theorem corners_one_sided :
    let around := containingSurfaces [[1, 1, 2], [2]]
    ¬ CornersWhereSurfacesChange around [{ ends := [(1, 2)], next := id }] ∧
    buildCorners around [{ ends := [(1, 2)], next := id }] = [] ∧ buildCorners around [{ ends := [(2, 1)], next := id }] = [2, 1] := by
  refine ⟨?_, by decide +kernel, by decide +kernel⟩
  intro h
  have := h 1 2 ⟨_, List.mem_singleton.2 rfl, by simp⟩ ⟨1, by decide +kernel⟩
  revert this
  decide +kernel

/-! ## Loops without corner -/

/-- Full statement: every border edge is an edge of a line. -/
def BordersCovered (borders : List Border) (t : Topology) : Prop :=
  ∀ b ∈ borders, ∀ e ∈ b.ends, ∃ l ∈ t.lines, onLine l e = true

/-- When no edge makes a corner, there is neither corner nor line nor relation. -/
theorem loop_without_corner {around : Nat → List Nat} {borders : List Border} (h : ∀ v w, IsEdge borders v w → (around v).Perm (around w)) :
    topology around borders = .ok { corners := [], lines := [], relations := borders.map fun _ => ⟨[], []⟩ } := by
  have hc : buildCorners around borders = [] := by
    cases hb : buildCorners around borders with
    | nil => rfl
    | cons u us =>
      obtain ⟨v, w, he, _, hp⟩ := corner_reason (u := u) (around := around) (borders := borders) (by rw [hb]; simp)
      exact absurd (h v w he) hp
  have hstep : ∀ (b : Border) (n : Nat), n ≤ b.ends.length → ∀ st, Res.foldM' (edgeStep b []) st (List.range n) = .ok st := by
    intro b n
    induction n with
    | zero => intro _ st; rfl
    | succ n ih =>
      intro hn st
      rw [List.range_succ, Res.foldM'_append, ih (by omega), Res.ok_bind, Res.foldM'_cons]
      unfold edgeStep
      rw [Res.index_of_lt (by omega : n < b.ends.length)]
      rfl
  have hall : ∀ (bs : List Border) (rs : List Relations), Res.foldM' (surfaceLines []) ([], rs) bs = .ok ([], rs ++ bs.map fun _ => ⟨[], []⟩) := by
    intro bs
    induction bs with
    | nil => intro rs; simp
    | cons b bs ih =>
      intro rs
      rw [Res.foldM'_cons]
      have : surfaceLines [] ([], rs) b = .ok ([], rs ++ [⟨[], []⟩]) := by
        unfold surfaceLines
        rw [hstep b _ (Nat.le_refl _), Res.ok_bind]
        rfl
      rw [this, Res.ok_bind, ih, List.map_cons, List.append_assoc]
      rfl
  have hl : buildLines [] borders = .ok ([], borders.map fun _ => ⟨[], []⟩) := by
    have := hall borders []
    simpa [buildLines] using this
  unfold topology
  simp only [hc, hl, Res.ok_bind, Res.pure_eq]

/-- The border of a surface alone: a loop of three edges. -/
def triangle : Border := { ends := [(0, 1), (1, 2), (2, 0)], next := fun i => (i + 1) % 3 }

theorem triangle_ok : NextOk triangle := by
  refine ⟨?_, ?_, ?_⟩
  · intro i hi
    exact Nat.mod_lt _ (by decide)
  · intro i hi j hj e
    have hi : i < 3 := hi
    have hj : j < 3 := hj
    simp only [triangle] at e
    omega
  · intro i e f he hf
    obtain ⟨hi, _⟩ := List.getElem?_eq_some_iff.1 he
    have hi : i < 3 := hi
    rcases (by omega : i = 0 ∨ i = 1 ∨ i = 2) with rfl | rfl | rfl <;> (cases he; cases hf; rfl)

/-- A surface alone has no line, so its border is not covered. -/
theorem alone_not_covered : ∃ t, topology (containingSurfaces [[0, 1, 2]]) [triangle] = .ok t ∧ ¬ BordersCovered [triangle] t := by
  refine ⟨_, loop_without_corner ?_, ?_⟩
  · rintro v w ⟨b, hb, he⟩
    rw [List.mem_singleton.1 hb] at he
    have : v ∈ [0, 1, 2] ∧ w ∈ [0, 1, 2] := by
      rcases List.mem_cons.1 he with h | h
      · cases h; decide
      · rcases List.mem_cons.1 h with h | h
        · cases h; decide
        · rcases List.mem_cons.1 h with h | h
          · cases h; decide
          · cases h
    have hall : ∀ x ∈ [0, 1, 2], containingSurfaces [[0, 1, 2]] x = [0] := by decide +kernel
    rw [hall v this.1, hall w this.2]
  · intro h
    obtain ⟨l, hl, _⟩ := h triangle (by simp) (0, 1) (by simp [triangle])
    cases hl

/-! ## Slits -/

/-- Full statement: a line whose edges are passed in both directions by the border of a surface is internal to the surface. -/
def TwoSidesInternal (borders : List Border) (t : Topology) : Prop :=
  ∀ (s : Nat) (b : Border) (r : Relations), borders[s]? = some b → t.relations[s]? = some r → ∀ (k : Nat) (l : List Nat), t.lines[k]? = some l →
    (∀ p ∈ pairs l, p ∈ b.ends ∧ (p.2, p.1) ∈ b.ends) → k ∈ r.internals

/-- A square 0 1 2 3 with a slit from 0 to 4 and 5. -/
def slit : Border := { ends := [(0, 1), (1, 2), (2, 3), (3, 0), (0, 4), (4, 5), (5, 4), (4, 0)], next := fun i => (i + 1) % 8 }

/-- The end of the slit is not a corner, but the vertex before it is; the last edge of the slit is a line of its own, passed in both directions,
and a boundary of the surface. -/
theorem slit_end : topology (containingSurfaces [[0, 1, 2, 3, 0, 4, 5, 4]]) [slit] =
    .ok { corners := [0, 4], lines := [[0, 1, 2, 3, 0], [0, 4], [4, 5, 4]], relations := [⟨[0, 2], [1]⟩] } := by decide +kernel

theorem two_sides_not_internal : ∃ t, topology (containingSurfaces [[0, 1, 2, 3, 0, 4, 5, 4]]) [slit] = .ok t ∧ ¬ TwoSidesInternal [slit] t := by
  refine ⟨_, slit_end, ?_⟩
  intro h
  have := h 0 slit _ rfl rfl 2 _ rfl (by decide +kernel)
  revert this
  decide +kernel

theorem forall₂_get {α β : Type} {R : α → β → Prop} {l : List α} {m : List β} (h : List.Forall₂ R l m) :
    ∀ {i : Nat} {a : α} {b : β}, l[i]? = some a → m[i]? = some b → R a b := by
  induction h with
  | nil => intro i a b ha; simp at ha
  | cons hr _ ih =>
    intro i a b ha hb
    cases i with
    | zero => cases ha; cases hb; exact hr
    | succ i => exact ih ha hb

theorem pairs_first {l : List Nat} {p : Nat × Nat} (h : (pairs l).head? = some p) : l.head? = some p.1 := by
  match l, h with
  | a :: b :: l, h => cases h; rfl

theorem pairs_last : ∀ {l : List Nat} {p : Nat × Nat}, (pairs l).getLast? = some p → l.getLast? = some p.2 := by
  intro l
  induction l with
  | nil => intro p h; cases h
  | cons a l ih =>
    match l with
    | [] => intro p h; cases h
    | [b] => intro p h; cases h; rfl
    | b :: c :: l =>
      intro p h
      rw [List.getLast?_cons_cons]
      refine ih ?_
      rw [pairs_cons, pairs_cons, List.getLast?_cons_cons] at h
      exact h

theorem mem_of_head? {α : Type} {l : List α} {a : α} (h : l.head? = some a) : a ∈ l := by
  cases l with
  | nil => cases h
  | cons b l => cases h; simp

/-- It holds when the line does not come back along its first edge: then the two directions are counted. -/
theorem two_sides_internal_partial {borders : List Border} (h : ∀ b ∈ borders, NextOk b) {around : Nat → List Nat} {t : Topology}
    (ht : topology around borders = .ok t) (hcon : Consistent borders t.corners) {s : Nat} {b : Border} {r : Relations}
    (hb : borders[s]? = some b) (hr : t.relations[s]? = some r) {k : Nat} {l : List Nat} (hl : t.lines[k]? = some l)
    (hboth : ∀ p ∈ pairs l, p ∈ b.ends ∧ (p.2, p.1) ∈ b.ends)
    (hback : ∀ p q, (pairs l).head? = some p → (pairs l).getLast? = some q → p ≠ (q.2, q.1)) : k ∈ r.internals := by
  obtain ⟨c1, a1⟩ := lines_corner_to_corner h ht l (List.mem_of_getElem? hl)
  have hrel := forall₂_get (topology_spec h ht).2.2 hb hr
  have hcommon : ∀ e, onLine l e = true → e ∈ b.ends → e.1 ∈ t.corners → commonLine t.lines e = some k := by
    intro e ho he hc
    obtain ⟨j, hj⟩ := hrel.covered e he hc
    obtain ⟨m, hm, hom, _⟩ := commonLine_some hj
    rw [hj, lines_disjoint_partial h ht hcon hm hl hom ho]
  have hne : pairs l ≠ [] := by
    match l, c1.two with
    | a :: c :: l, _ => simp [pairs]
  obtain ⟨p, hp⟩ : ∃ p, (pairs l).head? = some p := ⟨_, List.head?_eq_some_head hne⟩
  obtain ⟨q, hq⟩ : ∃ q, (pairs l).getLast? = some q := ⟨_, List.getLast?_eq_some_getLast hne⟩
  have hpm := mem_of_head? hp
  have hqm := List.mem_of_getLast? hq
  have hpc : p.1 ∈ t.corners := c1.first _ (pairs_first hp)
  have hqc : q.2 ∈ t.corners := c1.last _ (pairs_last hq)
  have e1 := hcommon p (onLine_iff.2 (.inl hpm)) (hboth p hpm).1 hpc
  have e2 := hcommon (q.2, q.1) (onLine_iff.2 (.inr hqm)) (hboth q hqm).2 hqc
  refine (hrel.internal k).2 (Nat.le_antisymm (hrel.most k) ?_)
  unfold passages
  have hsub : [p, (q.2, q.1)] ⊆ b.ends.filter fun e => decide (e.1 ∈ t.corners) && decide (commonLine t.lines e = some k) := by
    intro x hx
    rcases List.mem_cons.1 hx with rfl | hx
    · exact List.mem_filter.2 ⟨(hboth _ hpm).1, by simp [hpc, e1]⟩
    · rw [List.mem_singleton.1 hx]
      exact List.mem_filter.2 ⟨(hboth _ hqm).2, by simp [hqc, e2]⟩
  exact (List.subperm_of_subset (by simp [hback p q hp hq]) hsub).length_le

/-! ## Lines that share edges -/

/-- Full statement: no edge belongs to two lines. -/
def LinesDisjoint (t : Topology) : Prop :=
  ∀ (j k : Nat) (l m : List Nat) (e : Nat × Nat), t.lines[j]? = some l → t.lines[k]? = some m → onLine l e = true → onLine m e = true → j = k

/-- Two borders that part at 1, where the same surfaces are found: the edge between 0 and 1 is on two lines. -/
theorem shared_edge :
    topology (containingSurfaces [[0, 1, 2, 3, 4, 5, 9], [0, 1, 2, 3, 4, 5, 9], [0, 9]])
      [{ ends := [(0, 1), (1, 2), (2, 9), (9, 3), (3, 0)], next := fun i => (i + 1) % 5 },
       { ends := [(9, 4), (4, 1), (1, 0), (0, 5), (5, 9)], next := fun i => (i + 1) % 5 }] =
    .ok { corners := [0, 9], lines := [[0, 1, 2, 9], [9, 3, 0], [9, 4, 1, 0], [0, 5, 9]], relations := [⟨[0, 1], []⟩, ⟨[2, 3], []⟩] } := by
  decide +kernel

theorem lines_not_disjoint : ∃ around borders t, topology around borders = .ok t ∧ ¬ LinesDisjoint t := by
  refine ⟨_, _, _, shared_edge, ?_⟩
  intro h
  have := h 0 2 _ _ (0, 1) rfl rfl (by decide +kernel) (by decide +kernel)
  omega

/-! ## Surfaces that are not split -/

/-- The relations of a surface after `split_on_internal_lines`. -/
def afterSplit (lines : List (List Nat)) (edges : List (Nat × Nat)) (r : Relations) : Relations :=
  { r with internals := r.internals ++ missingInternals lines edges r }

/-- Every line whose first edge is an edge of a surface is a boundary of the surface or internal to it. -/
theorem lines_on_surface_related (lines : List (List Nat)) (edges : List (Nat × Nat)) (r : Relations) {k : Nat} {a b : Nat} {l : List Nat}
    (hk : lines[k]? = some (a :: b :: l)) (he : (a, b) ∈ edges ∨ (b, a) ∈ edges) :
    k ∈ (afterSplit lines edges r).boundaries ∨ k ∈ (afterSplit lines edges r).internals := by
  by_cases hb : k ∈ r.boundaries
  · exact .inl hb
  · right
    by_cases hi : k ∈ r.internals
    · exact List.mem_append_left _ hi
    · refine List.mem_append_right _ (List.mem_filter.2 ⟨List.mem_range.2 (List.getElem?_eq_some_iff.1 hk).1, ?_⟩)
      simp [hk, hb, hi, he]

/-- Nothing else is added: relations made before are kept, and a line is not both a boundary and an added internal line. -/
theorem split_adds_only {lines : List (List Nat)} {edges : List (Nat × Nat)} {r : Relations} {k : Nat}
    (hk : k ∈ missingInternals lines edges r) : k ∉ r.boundaries ∧ k ∉ r.internals := by
  have := (List.mem_filter.1 hk).2
  simp only [Bool.and_eq_true, Bool.not_eq_true', Bool.or_eq_false_iff] at this
  exact ⟨by simpa using this.2.1, by simpa using this.2.2⟩

/-- A surface crossed by the line from 0 to 2, which is not on its border. -/
example : missingInternals [[0, 1, 2], [3, 4]] [(1, 0), (1, 2), (2, 0), (3, 4)] ⟨[1], []⟩ = [0] := by decide +kernel

/-! ## The hypotheses are met -/

/-- Two surfaces that share the edge from 0 to 1: triangles 0 1 2 and 1 0 3. -/
def twoTriangles : List Border :=
  [triangle, { ends := [(1, 0), (0, 3), (3, 1)], next := fun i => (i + 1) % 3 }]

theorem twoTriangles_ok : ∀ b ∈ twoTriangles, NextOk b := by
  intro b hb
  rcases List.mem_cons.1 hb with rfl | hb
  · exact triangle_ok
  · rw [List.mem_singleton.1 hb]
    refine ⟨?_, ?_, ?_⟩
    · intro i hi
      exact Nat.mod_lt _ (by decide)
    · intro i hi j hj e
      have hi : i < 3 := hi
      have hj : j < 3 := hj
      simp only at e
      omega
    · intro i e f he hf
      obtain ⟨hi, _⟩ := List.getElem?_eq_some_iff.1 he
      have hi : i < 3 := hi
      rcases (by omega : i = 0 ∨ i = 1 ∨ i = 2) with rfl | rfl | rfl <;> (cases he; cases hf; rfl)

/-- Two corners, three lines; the shared line is a boundary of both. -/
theorem twoTriangles_topology : topology (containingSurfaces [[0, 1, 2], [1, 0, 3]]) twoTriangles =
    .ok { corners := [1, 0], lines := [[0, 1], [1, 2, 0], [0, 3, 1]], relations := [⟨[0, 1], []⟩, ⟨[0, 2], []⟩] } := by decide +kernel

example : Consistent twoTriangles [1, 0] := by
  rintro u v w x y hv ⟨b, hb, i, h1, h2⟩ ⟨c, hc, j, h3, h4⟩
  have key : ∀ b ∈ twoTriangles, ∀ i u v w, v ∉ [1, 0] → b.ends[i]? = some (u, v) → b.ends[b.next i]? = some (v, w) →
      (u, v, w) ∈ [(1, 2, 0), (0, 3, 1)] := by
    intro b hb i u v w hv h1 h2
    have hb : b = triangle ∨ b = { ends := [(1, 0), (0, 3), (3, 1)], next := fun i => (i + 1) % 3 } := by
      simpa [twoTriangles] using hb
    rcases hb with rfl | rfl
    all_goals
      obtain ⟨hi, _⟩ := List.getElem?_eq_some_iff.1 h1
      have hi : i < 3 := hi
      rcases (by omega : i = 0 ∨ i = 1 ∨ i = 2) with rfl | rfl | rfl <;>
        (cases h1; cases h2; first | exact absurd (by decide) hv | decide)
  have k1 := key b hb i u v w hv h1 h2
  have k2 := key c hc j x v y hv h3 h4
  simp only [List.mem_cons, Prod.mk.injEq, List.not_mem_nil, or_false] at k1 k2
  omega

/-! ## When following a border does not end -/

/-- The edge reached after `k` steps starts at a corner. -/
def AtCorner (b : Border) (corners : List Nat) (k i : Nat) : Prop := ∃ e, b.ends[steps b k i]? = some e ∧ e.1 ∈ corners

theorem walk_diverges {b : Border} (hlt : ∀ i < b.ends.length, b.next i < b.ends.length) {corners : List Nat} (n i : Nat) (hi : i < b.ends.length) :
    walk b corners n i = .diverge ↔ ∀ k < n, ¬ AtCorner b corners (k + 1) i := by
  induction n generalizing i with
  | zero => simp [walk]
  | succ n ih =>
    have hn := hlt i hi
    rw [walk, index_of_lt hn, ok_bind]
    have h0 : AtCorner b corners 1 i ↔ b.ends[b.next i].1 ∈ corners := by
      unfold AtCorner
      simp [steps, List.getElem?_eq_getElem hn]
    have hs : ∀ k, AtCorner b corners (k + 1 + 1) i ↔ AtCorner b corners (k + 1) (b.next i) := by
      intro k
      unfold AtCorner
      rw [steps_succ']
    by_cases hc : b.ends[b.next i].1 ∈ corners
    · rw [if_pos (by simpa using hc)]
      constructor
      · intro h; cases h
      · intro h; exact absurd (h0.2 hc) (h 0 (by omega))
    · rw [if_neg (by simpa using hc)]
      have key : (do let r ← walk b corners n (b.next i); pure (b.ends[b.next i].1 :: r) : Res (List Nat)) = .diverge ↔ walk b corners n (b.next i) = .diverge := by
        cases walk b corners n (b.next i) <;> simp
      rw [key, ih _ hn]
      constructor
      · intro h k hk
        cases k with
        | zero => rw [h0]; exact hc
        | succ k => rw [hs]; exact h k (by omega)
      · intro h k hk
        rw [← hs]
        exact h (k + 1) (by omega)

/-- After as many steps as there are edges, an edge has been met twice, and no other edge comes. -/
theorem steps_repeat {b : Border} (hlt : ∀ i < b.ends.length, b.next i < b.ends.length) {i : Nat} (hi : i < b.ends.length) (k : Nat) :
    ∃ j < b.ends.length, steps b (k + 1) i = steps b (j + 1) i := by
  have hb : ∀ k, steps b k i < b.ends.length := by
    intro k
    induction k with
    | zero => exact hi
    | succ k ih => exact hlt _ ih
  induction k using Nat.strongRecOn with
  | ind k ih =>
    by_cases hk : k < b.ends.length
    · exact ⟨k, hk, rfl⟩
    · have hnd : ¬ ((List.range (b.ends.length + 1)).map fun j => steps b (j + 1) i).Nodup := by
        intro hnd
        have hsub : ((List.range (b.ends.length + 1)).map fun j => steps b (j + 1) i) ⊆ List.range b.ends.length := by
          intro x hx
          obtain ⟨j, -, rfl⟩ := List.mem_map.1 hx
          exact List.mem_range.2 (hb _)
        have := (hnd.subperm hsub).length_le
        simp at this
        omega
      have : ∃ x y, x < y ∧ y < b.ends.length + 1 ∧ steps b (x + 1) i = steps b (y + 1) i := by
        by_contra hno
        refine hnd (List.Nodup.map_on ?_ List.nodup_range)
        intro x hx y hy e
        rw [List.mem_range] at hx hy
        by_contra hxy
        rcases Nat.lt_or_gt_of_ne hxy with h | h
        · exact hno ⟨x, y, h, hy, e⟩
        · exact hno ⟨y, x, h, hx, e.symm⟩
      obtain ⟨x, y, hxy, hy, e⟩ := this
      have e2 : steps b (k + 1) i = steps b (k - (y - x) + 1) i := by
        rw [show k + 1 = (k - y) + (y + 1) by omega, steps_add, ← e, ← steps_add]
        congr 1
        omega
      obtain ⟨j, hj, h⟩ := ih (k - (y - x)) (by omega)
      exact ⟨j, hj, e2.trans h⟩

/-- **C88 without the contract**: on a border of which each edge has a next one, a line is not finished exactly when no corner is met, however far the border is
followed. -/
theorem line_endless_iff {b : Border} (hlt : ∀ i < b.ends.length, b.next i < b.ends.length) {corners : List Nat} {i : Nat} (hi : i < b.ends.length) :
    buildLine b corners i = .diverge ↔ ∀ k, ¬ AtCorner b corners (k + 1) i := by
  have key : buildLine b corners i = .diverge ↔ walk b corners b.ends.length i = .diverge := by
    unfold buildLine
    rw [index_of_lt hi, ok_bind]
    cases walk b corners b.ends.length i <;> simp
  rw [key, walk_diverges hlt _ _ hi]
  constructor
  · intro h k hk
    obtain ⟨j, hj, e⟩ := steps_repeat hlt hi k
    refine h j hj ?_
    unfold AtCorner at hk ⊢
    rw [← e]
    exact hk
  · intro h k _
    exact h k

/-- A border that goes back to its second edge: from the corner 0, to 1 and 2, and then from 1 to 2 for ever (a map that is not one-to-one). -/
example : buildLine { ends := [(0, 1), (1, 2), (2, 1)], next := fun i => if i = 2 then 1 else i + 1 } [0] 0 = .diverge := by decide +kernel

end Verif.Props.LsoLines
