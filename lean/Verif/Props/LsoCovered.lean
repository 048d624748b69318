import Verif.Props.LsoLines

/-!
# Which borders of LSO surfaces are covered by lines, exactly (C90)
-/

namespace Verif.Props.LsoCovered

open Verif.LsoLines Verif.Props.LsoLines Res

/-- A set of vertices that a line enters and cannot leave has its last vertex. -/
theorem stays_inside {V : Nat → Prop} : ∀ {l : List Nat}, (∀ t ∈ triples l, V t.1 → V t.2.1 → V t.2.2) → ∀ {x y : Nat}, (x, y) ∈ pairs l → V x → V y →
    ∀ z, l.getLast? = some z → V z := by
  intro l
  induction l with
  | nil => intro _ x y h; cases h
  | cons a l ih =>
    match l, ih with
    | [], _ => intro _ x y h; cases h
    | [b], _ =>
      intro _ x y h _ hy z hz
      rcases List.mem_cons.1 h with h | h
      · cases h; cases hz; exact hy
      · cases h
    | b :: c :: l, ih =>
      intro ht x y h hx hy z hz
      rw [List.getLast?_cons_cons] at hz
      have ht' : ∀ t ∈ triples (b :: c :: l), V t.1 → V t.2.1 → V t.2.2 := fun t hm => ht t (List.mem_cons_of_mem _ hm)
      rcases List.mem_cons.1 h with h | h
      · cases h
        exact ih ht' (x := b) (y := c) (List.mem_cons_self ..) hy (ht (a, b, c) (List.mem_cons_self ..) hx hy) z hz
      · exact ih ht' h hx hy z hz

/-- The vertices of the loop of a border edge. -/
def OfLoop (b : Border) (i x : Nat) : Prop := ∃ k e, b.ends[steps b k i]? = some e ∧ e.1 = x

theorem next_of_loop {b : Border} (h : NextOk b) {i : Nat} (hi : i < b.ends.length) {k : Nat} {e : Nat × Nat} (he : b.ends[steps b k i]? = some e) :
    OfLoop b i e.2 := by
  have hlt := steps_lt h hi (k + 1)
  exact ⟨k + 1, _, List.getElem?_eq_getElem hlt, h.meets _ _ _ he (List.getElem?_eq_getElem hlt)⟩

/-- The border goes through every vertex of the loop from a vertex of the loop to another. -/
theorem pass_of_loop {b : Border} (h : NextOk b) {borders : List Border} (hb : b ∈ borders) {i : Nat} (hi : i < b.ends.length) {y : Nat} (hy : OfLoop b i y) :
    ∃ u w, Pass borders u y w ∧ OfLoop b i u ∧ OfLoop b i w := by
  obtain ⟨k, e, he, rfl⟩ := hy
  obtain ⟨n, hn, _, hr⟩ := steps_return h hi
  have hp : b.next (steps b (k + n - 1) i) = steps b k i := by
    have e1 : steps b (k + n) i = steps b k i := by rw [steps_add, hr]
    rw [← e1]
    obtain ⟨m, rfl⟩ := Nat.exists_eq_succ_of_ne_zero (Nat.pos_iff_ne_zero.1 hn)
    rfl
  have hlt := steps_lt h hi (k + n - 1)
  have hg := List.getElem?_eq_getElem hlt
  have hm := h.meets _ _ e hg (by rw [hp]; exact he)
  refine ⟨(b.ends[steps b (k + n - 1) i]'hlt).1, e.2, ⟨b, hb, _, by rw [hg, hm], by rw [hp]; exact he⟩, ⟨_, _, hg, rfl⟩, next_of_loop h hi he⟩

/-- **C90, exactly**, when the borders through a vertex that is not a corner follow the same edges: a border edge is on a line if and only if its loop has a
corner. -/
theorem covered_iff {borders : List Border} (h : ∀ b ∈ borders, NextOk b) {around : Nat → List Nat} {t : Topology}
    (ht : topology around borders = .ok t) (hcon : Consistent borders t.corners) {b : Border} (hb : b ∈ borders) {i : Nat} {e : Nat × Nat}
    (he : b.ends[i]? = some e) : (∃ l ∈ t.lines, onLine l e = true) ↔ LoopHasCorner t.corners b i := by
  refine ⟨?_, borders_covered_partial h ht hcon hb he⟩
  rintro ⟨l, hl, ho⟩
  by_contra hno
  have hi : i < b.ends.length := (List.getElem?_eq_some_iff.1 he).1
  have hV : ∀ x, OfLoop b i x → x ∉ t.corners := by
    rintro x ⟨k, f, hf, rfl⟩ hc
    exact hno ⟨k, f, hf, hc⟩
  have v1 : OfLoop b i e.1 := ⟨0, e, he, rfl⟩
  have v2 : OfLoop b i e.2 := next_of_loop (h b hb) hi (k := 0) he
  obtain ⟨h1, h2⟩ := lines_corner_to_corner h ht l hl
  have hstep : ∀ p ∈ triples l, OfLoop b i p.1 → OfLoop b i p.2.1 → OfLoop b i p.2.2 := by
    rintro ⟨x, y, z⟩ hm _ hy
    obtain ⟨u, w, hp, hu, hw⟩ := pass_of_loop (h b hb) hb hi hy
    rcases hcon x y z u w (hV y hy) (h2.passes _ hm) hp with ⟨_, rfl⟩ | ⟨_, rfl⟩
    · exact hw
    · exact hu
  have hend : ∃ z, l.getLast? = some z := by
    cases hl' : l.getLast? with
    | none =>
      rw [List.getLast?_eq_none_iff] at hl'
      have := h1.two
      rw [hl'] at this
      simp at this
    | some z => exact ⟨z, rfl⟩
  obtain ⟨z, hz⟩ := hend
  refine hV z ?_ (h1.last z hz)
  rcases onLine_iff.1 (show onLine l (e.1, e.2) = true from ho) with hp | hp
  · exact stays_inside hstep hp v1 v2 z hz
  · exact stays_inside hstep hp v2 v1 z hz

/-- All the borders are covered if and only if all the loops have a corner. -/
theorem all_covered_iff {borders : List Border} (h : ∀ b ∈ borders, NextOk b) {around : Nat → List Nat} {t : Topology}
    (ht : topology around borders = .ok t) (hcon : Consistent borders t.corners) :
    BordersCovered borders t ↔ ∀ b ∈ borders, ∀ i < b.ends.length, LoopHasCorner t.corners b i := by
  constructor
  · intro hc b hb i hi
    exact (covered_iff h ht hcon hb (List.getElem?_eq_getElem hi)).1 (hc b hb _ (List.getElem_mem hi))
  · intro hc b hb e he
    obtain ⟨i, hi, rfl⟩ := List.mem_iff_getElem.1 he
    exact (covered_iff h ht hcon hb (List.getElem?_eq_getElem hi)).2 (hc b hb i hi)

/-- The borders of two triangles satisfy the first hypotheses. -/
example : (∀ b ∈ twoTriangles, NextOk b) ∧ ∃ t, topology (containingSurfaces [[0, 1, 2], [1, 0, 3]]) twoTriangles = .ok t := ⟨twoTriangles_ok, _, twoTriangles_topology⟩

end Verif.Props.LsoCovered
