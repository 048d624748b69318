import Verif.Lemmas.LsoModel

/-!
# Numbers of the vertices of `.lso` files (C43)
-/

namespace Verif.Props.LsoNumbers

open Verif Verif.Gocad Verif.GocadMesh Verif.Lso Verif.Sides Res

variable {D : Type} [Num D]

/-- All the vertices of blocks of a model. -/
def allVertices (m : Model D) : List Cmv := m.uniques.flatten.filter Cmv.isBlock

/-- A numbered list of lines. -/
def numberedLines {α : Type} (line : Nat → α → Str) : Nat → List α → File
  | _, [] => []
  | n, a :: as => line n a :: numberedLines line (n + 1) as

/-- A line with coordinates. -/
def pointLine (n : Nat) (p : Pt D) : Str := cs!"VRTX" ++ spaced (showNat n :: p.toks)

/-- A line that refers to vertex number `u + 1`. -/
def sharedLine (n : Nat) (e : Nat × Cmv) : Str := cs!"SHAREDVRTX" ++ spaced [showNat n, showNat (e.1 + 1)]

theorem vrtxLines_eq (n : Nat) (ps : List (Pt D)) : Lso.vrtxLines n ps = numberedLines pointLine n ps := by
  induction ps generalizing n with
  | nil => rfl
  | cons p ps ih => rw [Lso.vrtxLines, ih]; rfl

theorem sharedLines_eq (n : Nat) (es : List (Nat × Cmv)) : sharedLines n (es.map fun e => e.1 + 1) = numberedLines sharedLine n es := by
  induction es generalizing n with
  | nil => rfl
  | cons e es ih => rw [List.map_cons, sharedLines, ih]; rfl

theorem allVertices_eq (m : Model D) : m.uniques.flatMap blockVertices = allVertices m := by
  unfold allVertices
  rw [List.filter_flatten, List.flatMap_def]; rfl

/-- C43.  The vertices of a saved solid: every vertex of every block is written once, first one vertex `firsts[u]` of each unique vertex with its point
(that of the block with the smallest identifier),
then the other ones `(u, c)` with a reference to the vertex they coincide with; the numbers of the lines are 1, 2, 3…, and the number that the
tetrahedra use for a vertex is the number of its line. -/
theorem numbers {m : Model D} (ho : Once m) {vs : List (List (Cmv × Nat))} {ls : File} (h : writeVertices m = .ok (vs, ls)) :
    ∃ (firsts : List Cmv) (ps : List (Pt D)) (shared : List (Nat × Cmv)),
      (firsts ++ shared.map Prod.snd).Perm (allVertices m) ∧ (firsts ++ shared.map Prod.snd).Nodup ∧
      firsts.length = m.uniques.length ∧
      (∀ (u : Nat) (c : Cmv), firsts[u]? = some c → ∃ l : List Cmv, m.uniques[u]? = some l ∧ c ∈ l ∧
        ∀ y ∈ l, y.isBlock = true → c.id ≤ y.id) ∧
      (∀ e ∈ shared, ∃ l : List Cmv, m.uniques[e.1]? = some l ∧ e.2 ∈ l) ∧
      List.Forall₂ (PointOf m) firsts ps ∧
      ls = numberedLines pointLine 1 ps ++ numberedLines sharedLine (ps.length + 1) shared ∧
      ∀ c n, vertexNumber m vs c = .ok n ↔ 0 < n ∧ (firsts ++ shared.map Prod.snd)[n - 1]? = some c := by
  obtain ⟨ps, hps, hm, e1, e2⟩ := writeVertices_ok h
  have hnd : (order m).Nodup := (order_perm m).nodup_iff.2 ho.blocks
  have hl := mains_length hm
  refine ⟨mains m.uniques, ps, sharedFrom 0 m.uniques, ?_, hnd, hl, ?_, ?_, hps, ?_, ?_⟩
  · rw [← allVertices_eq]; exact order_perm m
  · intro u c hc
    have hlt : u < m.uniques.length := by rw [← hl]; exact (List.getElem?_eq_some_iff.1 hc).1
    have hu : m.uniques[u]? = some m.uniques[u] := List.getElem?_eq_getElem hlt
    obtain ⟨x, hx⟩ := hm _ (List.getElem_mem hlt)
    rw [mains_getElem? hm hu hx] at hc
    cases hc
    refine ⟨_, hu, ?_⟩
    have : c ∈ blockVertices m.uniques[u] := mem_blockVertices_iff.2 (Or.inl (by rw [hx]; simp))
    refine ⟨(List.mem_filter.1 this).1, fun y hy hb => ?_⟩
    obtain ⟨x, h1, h2⟩ := mainOf_eq (List.ne_nil_of_mem this)
    rw [hx] at h2
    cases h2
    exact firstBlock_min h1 (List.mem_filter.2 ⟨hy, hb⟩)
  · rintro ⟨u, c⟩ he
    obtain ⟨k, l, hk, e, hc⟩ := mem_shared.1 he
    have : u = k := by omega
    subst this
    exact ⟨l, hk, (List.mem_filter.1 (mem_blockVertices_iff.2 (Or.inr hc))).1⟩
  · rw [e2, vrtxLines_eq, sharedLines_eq, ← hps.length_eq, hl]
  · intro c n
    rw [e1]
    change _ ↔ 0 < n ∧ (order m)[n - 1]? = some c
    constructor
    · intro hv
      have hmem := vertexNumber_mem hm hv
      rw [vertexNumber_eq ho hm hmem] at hv
      have := Res.ok.inj hv
      subst this
      refine ⟨by omega, ?_⟩
      rw [Nat.add_sub_cancel, List.getElem?_eq_getElem (List.idxOf_lt_length_of_mem hmem), List.getElem_idxOf]
    · rintro ⟨hn, hc⟩
      have hmem := List.mem_of_getElem? hc
      rw [vertexNumber_eq ho hm hmem]
      obtain ⟨hlt, e⟩ := List.getElem?_eq_some_iff.1 hc
      have : (order m).idxOf c = n - 1 := by rw [← e]; exact List.Nodup.idxOf_getElem hnd _ hlt
      rw [this]
      congr 1; omega

/-- The vertices of the tetrahedra of a saved solid are all numbered, and the lines of the tetrahedra have these numbers. -/
theorem tetra_lines {m : Model D} (ho : Once m) {vs : List (List (Cmv × Nat))} {ls tl : File} (h : writeVertices m = .ok (vs, ls))
    (ht : writeTetras m vs = .ok tl) : ∃ num : Nat → Nat → Nat,
      (∀ b ∈ m.blocks, ∀ t ∈ b.tetras, ∀ v ∈ t, vertexNumber m vs ⟨true, b.id, v⟩ = .ok (num b.id v)) ∧
      tl = m.blocks.flatMap fun b => b.tetras.flatMap fun t =>
        [cs!"TETRA" ++ spaced (t.map fun v => showNat (num b.id v)), cs!"# CTETRA" ++ spaced [b.name, cs!"none", cs!"none", cs!"none", cs!"none"]] := by
  obtain ⟨ps, hps, hm, e1, e2⟩ := writeVertices_ok h
  rw [e1] at ht ⊢
  obtain ⟨hpl, e3⟩ := writeTetras_ok ho hm ht
  refine ⟨fun b v => rank m b v + 1, ?_, ?_⟩
  · intro b hb t ht v hv
    exact vertexNumber_eq ho hm (hpl b hb t ht v hv)
  · rw [e3]
    unfold records
    have key : ∀ rs : List (List Nat × Str), tetraLines rs = rs.flatMap fun r => [tetraLine r.1, ctetraLine r.2] := by
      intro rs
      induction rs with
      | nil => rfl
      | cons r rs ih => rw [tetraLines, ih]; rfl
    rw [key, List.flatMap_assoc]
    congr 1
    funext b
    rw [List.flatMap_map]
    congr 1
    funext t
    unfold tetraLine
    rw [List.map_map]
    rfl

/-- A model can be saved only when every unique vertex is a vertex of some block. -/
theorem saved_vertices {m : Model D} {sides : AllSides} {f : File} (h : saveLso m sides = .ok f) :
    ∀ l ∈ m.uniques, ∃ c ∈ l, c.isBlock = true := by
  obtain ⟨⟨vs, vl⟩, h1, _⟩ := bind_eq_ok.1 h
  obtain ⟨ps, hps, hm, e1, e2⟩ := writeVertices_ok h1
  intro l hl
  obtain ⟨x, hx⟩ := hm l hl
  have : x ∈ blockVertices l := mem_blockVertices_iff.2 (Or.inl (by rw [hx]; simp))
  obtain ⟨h2, h3⟩ := List.mem_filter.1 this
  exact ⟨x, h2, h3⟩

/-- Two tetrahedra on both sides of a triangle. -/
def twoBlocks : Model Int :=
  { uniques := [[⟨true, 1, 0⟩, ⟨false, 9, 0⟩, ⟨true, 2, 1⟩], [⟨true, 2, 0⟩, ⟨true, 1, 1⟩, ⟨false, 9, 1⟩],
      [⟨true, 1, 2⟩, ⟨true, 2, 2⟩, ⟨false, 9, 2⟩], [⟨true, 1, 3⟩], [⟨true, 2, 3⟩]]
    blocks := [⟨1, cs!"A", [⟨0, 0, 0⟩, ⟨1, 0, 0⟩, ⟨0, 1, 0⟩, ⟨0, 0, 1⟩], [[0, 1, 2, 3]], [9]⟩,
      ⟨2, cs!"B", [⟨1, 0, 0⟩, ⟨0, 0, 0⟩, ⟨0, 1, 0⟩, ⟨0, 0, -1⟩], [[0, 1, 2, 3]], [9]⟩]
    surfaces := [⟨9, [[0, 1, 2]]⟩]
    horizons := [(cs!"h", [9])] }

/-- Its sides. -/
def twoSides : AllSides := { regions := [((1, 9), true), ((2, 9), false)], outside := [] }

example : Once twoBlocks ∧ (match writeVertices twoBlocks with | .ok _ => true | _ => false) = true := by
  refine ⟨?_, ?_⟩
  · unfold Once; decide
  · decide +kernel

/-- The lines of the vertices of the two tetrahedra. -/
example : (writeVertices twoBlocks >>= fun r => pure (r.2.drop 5)) =
    .ok [cs!"SHAREDVRTX 6 1", cs!"SHAREDVRTX 7 2", cs!"SHAREDVRTX 8 3"] := by decide +kernel

/-- A surface with a vertex that no block has cannot be written: `block_vertices.front()` of an empty list. -/
theorem loose_surface_ub : saveLso { twoBlocks with uniques := twoBlocks.uniques ++ [[⟨false, 7, 0⟩]] } twoSides = .ub := by decide +kernel

end Verif.Props.LsoNumbers
