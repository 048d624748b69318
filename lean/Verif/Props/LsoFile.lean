import Verif.Props.LsoCases
import Verif.Props.GocadTruncated

/-!
# Shared vertices and regions of LightSolid files that the library did not write
-/

set_option linter.unusedSectionVars false

namespace Verif.Props.LsoFile

open Verif Verif.Gocad Verif.GocadMesh Verif.Lso Verif.Sides Verif.Props.LsoNumbers Verif.Props.LsoRoundTrip Res

variable {D : Type} [Num D]

/-! ## Shared vertices -/

/-- A vertex of a file: a new point, or the vertex of another line, given by its rank. -/
inductive Rec (D : Type) where
  | new (p : Pt D)
  | shared (n : Nat)
  deriving DecidableEq

/-- The lines of the vertices, numbered from `k`. -/
def recLines : Nat → List (Rec D) → File
  | _, [] => []
  | k, .new p :: rs => (cs!"VRTX" ++ spaced (showNat k :: p.toks)) :: recLines (k + 1) rs
  | k, .shared n :: rs => (cs!"SHAREDVRTX" ++ spaced [showNat k, showNat (n + 1)]) :: recLines (k + 1) rs

/-- Shared vertices refer to new points of lines before them. -/
def Refers (rs : List (Rec D)) : Prop := ∀ (k n : Nat), rs[k]? = some (.shared n) → n < k ∧ ∃ p, rs[n]? = some (.new p)

/-- The vertex with rank `k` is the point `p` of the line with rank `n`. -/
def Is (rs : List (Rec D)) (k n : Nat) (p : Pt D) : Prop :=
  rs[n]? = some (.new p) ∧ (k = n ∨ rs[k]? = some (.shared n))

/-- The solid has the vertices of the lines: their points, and the same unique vertex for the same line. -/
structure Has (rs : List (Rec D)) (s : Solid D) : Prop where
  count : s.points.length = rs.length
  points : ∀ (k n : Nat) (p : Pt D), Is rs k n p → s.points[k]? = some p.round
  ids : ∀ (k n k' n' : Nat) (p p' : Pt D), Is rs k n p → Is rs k' n' p' → (s.ids[k]? = s.ids[k']? ↔ n = n')

/-- **The full property**: vertices that refer to vertices before them are read as these vertices. -/
def SharedRead (D : Type) [Num D] : Prop := ∀ (rs : List (Rec D)) (l : Str) (rest : File), rs ≠ [] → Refers rs → rs.length < NO_ID →
  contains cs!"VRTX" l = false → ∃ s, readVertices true [] {} (recLines 1 rs ++ l :: rest) = .ok (s, l, rest) ∧ Has rs s

theorem recLines_append (a b : List (Rec D)) : ∀ k, recLines k (a ++ b) = recLines k a ++ recLines (k + a.length) b := by
  induction a with
  | nil => intro k; rfl
  | cons r a ih =>
    intro k
    have e : k + (a.length + 1) = k + 1 + a.length := by omega
    cases r <;> simp [recLines, ih, e]

theorem recLines_new (ps : List (Pt D)) : ∀ k, recLines k (ps.map Rec.new) = Lso.vrtxLines k ps := by
  induction ps with
  | nil => intro k; rfl
  | cons p ps ih => intro k; simp [recLines, Lso.vrtxLines, ih]

theorem recLines_shared (ns : List Nat) : ∀ k, recLines (D := D) k (ns.map Rec.shared) = sharedLines k (ns.map (· + 1)) := by
  induction ns with
  | nil => intro k; rfl
  | cons n ns ih => intro k; simp [recLines, sharedLines, ih]

/-- **Shared vertices are read as the vertices they refer to** when they come after all the new points, as in the files the library writes. -/
theorem shared_read_partial [LawfulNum D] {ps : List (Pt D)} {ns : List Nat} (hp : ps ≠ []) (hn : ∀ n ∈ ns, n < ps.length)
    (hw : ps.length < NO_ID) {l : Str} (hl : contains cs!"VRTX" l = false) (rest : File) :
    ∃ s, readVertices true [] {} (recLines 1 (ps.map Rec.new ++ ns.map Rec.shared) ++ l :: rest) = .ok (s, l, rest) ∧
      Has (ps.map Rec.new ++ ns.map Rec.shared) s := by
  obtain ⟨p, ps', rfl⟩ := List.exists_cons_of_ne_nil hp
  generalize hps : p :: ps' = ps at *
  rw [recLines_append, recLines_new, recLines_shared, List.length_map, List.append_assoc]
  let s1 : Solid D := { points := ps.map Pt.round, ids := List.range' 0 ps.length, nbUnique := ps.length }
  have hW : NO_ID < W := by decide
  obtain ⟨qs, hqs, e6⟩ := readVerticesLoop_shared (D := D) (ns.map (· + 1)) (l :: rest) s1 (1 + ps.length)
    (by
      intro a ha
      obtain ⟨n, hn', rfl⟩ := List.mem_map.1 ha
      have := hn n hn'
      refine ⟨by omega, ?_, by omega⟩
      change n + 1 ≤ ps.length
      omega)
    (by change ps.length ≤ (ps.map Pt.round).length; simp)
  rw [List.forall₂_map_left_iff] at hqs
  have hqs' : List.Forall₂ (fun n q => (ps.map Pt.round)[n]? = some q) ns qs := hqs
  refine ⟨{ s1 with points := ps.map Pt.round ++ qs, ids := List.range' 0 ps.length ++ ns }, ?_, ?_⟩
  · unfold readVertices
    have eg : gotoKeywords [cs!"VRTX", cs!"PVRTX"] (Lso.vrtxLines 1 ps ++ (sharedLines (1 + ps.length) (ns.map (· + 1)) ++ l :: rest)) =
        .ok (cs!"VRTX" ++ spaced (showNat 1 :: p.toks), Lso.vrtxLines 2 ps' ++ (sharedLines (1 + ps.length) (ns.map (· + 1)) ++ l :: rest)) := by
      rw [← hps, Lso.vrtxLines, List.cons_append, gotoKeywords, if_pos]
      rfl
    rw [eg, ok_bind]
    dsimp only
    rw [readVertex_vrtx, ok_bind, readVerticesLoop_vrtx]
    have es : ({ points := ([] : List (Pt D)) ++ [p.round] ++ ps'.map Pt.round, ids := [] ++ [0] ++ List.range' (0 + 1) ps'.length
                 nbUnique := 0 + 1 + ps'.length } : Solid D) = s1 := by
      simp only [s1, ← hps]
      have en : 0 + 1 + ps'.length = ps'.length + 1 := by omega
      rw [en]
      simp [List.range'_succ]
    refine (congrArg (fun s => readVerticesLoop (D := D) true [] s (sharedLines (1 + ps.length) (ns.map (· + 1)) ++ l :: rest)) es).trans ?_
    rw [e6, readVerticesLoop, if_neg (by simp [hl])]
    simp [s1, List.map_map, Function.comp_def]
  · have hnew : ∀ {k : Nat} {q : Pt D}, (ps.map Rec.new ++ ns.map Rec.shared)[k]? = some (.new q) → ps[k]? = some q := by
      intro k q h
      rw [List.getElem?_append] at h
      split at h
      · simpa using h
      · rw [List.getElem?_map] at h
        cases hh : ns[k - (List.map Rec.new ps).length]? with
        | none => rw [hh] at h; cases h
        | some x => rw [hh] at h; cases h
    have hsh : ∀ {k n : Nat}, (ps.map Rec.new ++ ns.map Rec.shared)[k]? = some (.shared n : Rec D) → ps.length ≤ k ∧ ns[k - ps.length]? = some n := by
      intro k n h
      rw [List.getElem?_append] at h
      split at h
      · rw [List.getElem?_map] at h
        cases hh : ps[k]? with
        | none => rw [hh] at h; cases h
        | some x => rw [hh] at h; cases h
      · rename_i hk
        rw [List.length_map] at hk h
        rw [List.getElem?_map] at h
        cases hh : ns[k - ps.length]? with
        | none => rw [hh] at h; cases h
        | some x => rw [hh] at h; cases h; exact ⟨by omega, rfl⟩
    have hid : ∀ {k n : Nat} {q : Pt D}, Is (ps.map Rec.new ++ ns.map Rec.shared) k n q →
        (List.range' 0 ps.length ++ ns)[k]? = some n := by
      intro k n q h
      have h1 := hnew h.1
      have hlt : n < ps.length := (List.getElem?_eq_some_iff.1 h1).1
      rcases h.2 with rfl | h2
      · rw [List.getElem?_append_left (by simpa using hlt), List.getElem?_range' hlt]
        simp
      · obtain ⟨h3, h4⟩ := hsh h2
        rw [List.getElem?_append_right (by simpa using h3)]
        simpa using h4
    refine ⟨?_, ?_, ?_⟩
    · simp [← hqs'.length_eq]
    · intro k n q h
      have h1 := hnew h.1
      have hlt : n < ps.length := (List.getElem?_eq_some_iff.1 h1).1
      rcases h.2 with rfl | h2
      · show (ps.map Pt.round ++ qs)[k]? = _
        rw [List.getElem?_append_left (by simpa using hlt), List.getElem?_map, h1]
        rfl
      · obtain ⟨h3, h4⟩ := hsh h2
        obtain ⟨q', hq1, hq2⟩ := forall₂_getElem? hqs' h4
        show (ps.map Pt.round ++ qs)[k]? = _
        rw [List.getElem?_append_right (by simpa using h3), List.length_map, hq1, ← hq2, List.getElem?_map, h1]
        rfl
    · intro k n k' n' q q' h h'
      show (List.range' 0 ps.length ++ ns)[k]? = (List.range' 0 ps.length ++ ns)[k']? ↔ _
      rw [hid h, hid h', Option.some.injEq]

/-- **A shared vertex that comes before a new point is undefined behaviour as soon as it is referred to by its rank.**  A line that refers to a vertex
with a rank beyond the number of unique vertices so far is outside of `vertex_mapping_`. -/
theorem beyond_uniques_ub (s : Solid D) (k n : Nat) {p : Pt D} (h : s.nbUnique ≤ n) (hw : n + 1 < W) (hp : s.points[n]? = some p) :
    readVertex true [] s (cs!"SHAREDVRTX" ++ spaced [showNat k, showNat (n + 1)]) = .ub := by
  have ht : split (cs!"SHAREDVRTX" ++ spaced [showNat k, showNat (n + 1)]) = [cs!"SHAREDVRTX", showNat k, showNat (n + 1)] := by
    refine split_kw_spaced (by decide) ?_
    intro x hx
    simp only [List.mem_cons, List.not_mem_nil, or_false] at hx
    rcases hx with rfl | rfl <;> exact isTok_showNat _
  unfold readVertex
  have hs : startsWith (cs!"SHAREDVRTX" ++ spaced [showNat k, showNat (n + 1)]) cs!"SHARED" = true := rfl
  simp only [hs, ht, if_true, index_cons_succ, index_cons_zero, ok_bind, readIndex_showNat hw, sub32_of_le (show 1 ≤ n + 1 by omega) hw]
  rw [show n + 1 - 1 = n from rfl, index_eq_ok.2 hp]
  simp only [ok_bind, readProperties]
  rw [if_neg (by omega)]

/-- Four vertices, the second and the fourth shared. -/
def mixed : List (Rec Int) := [.new ⟨0, 0, 0⟩, .shared 0, .new ⟨1, 0, 0⟩, .shared 2]

/-- Witness: a file that mixes new and shared vertices. -/
theorem mixed_ub : readVertices (D := Int) true [] {} (recLines 1 mixed ++ [cs!"END"]) = .ub := by decide +kernel

/-- Witness of a silent error: the last vertex is at the point of the line 4 and has the unique vertex of the line 5. -/
theorem mixed_wrong : ∃ s, readVertices (D := Int) true [] {} (recLines (D := Int) 1 [.new ⟨0, 0, 0⟩, .new ⟨1, 0, 0⟩, .shared 0, .new ⟨2, 0, 0⟩, .new ⟨3, 0, 0⟩,
    .shared 3] ++ [cs!"END"]) = .ok (s, cs!"END", []) ∧ s.points[5]? = s.points[3]? ∧ s.ids[5]? ≠ s.ids[3]? ∧ s.ids[5]? = s.ids[4]? := by
  refine ⟨_, rfl, ?_⟩
  decide +kernel

theorem shared_not_read : ¬SharedRead Int := by
  intro h
  obtain ⟨s, h1, _⟩ := h mixed cs!"END" [] (by decide) (by
    intro k n hk
    match k with
    | 0 => cases hk
    | 1 => cases hk; exact ⟨by decide, _, rfl⟩
    | 2 => cases hk
    | 3 => cases hk; exact ⟨by decide, _, rfl⟩
    | k + 4 => cases hk) (by decide) (by decide)
  rw [mixed_ub] at h1
  cases h1

example : ∃ s, readVertices (D := Int) true [] {} (recLines (D := Int) 1 [.new ⟨0, 0, 0⟩, .new ⟨1, 0, 0⟩, .shared 1] ++ [cs!"END"]) = .ok (s, cs!"END", []) ∧
    s.points = [⟨0, 0, 0⟩, ⟨1, 0, 0⟩, ⟨1, 0, 0⟩] ∧ s.ids = [0, 1, 1] := by
  refine ⟨_, rfl, ?_⟩
  decide +kernel

/-! ## Regions -/

/-- The line describes a region. -/
def isRegion (l : Str) : Bool := startsWith l cs!"MODEL_REGION"

/-- The block is the one of the line: its name is the second word, its tetrahedra are those of the solid with this name, each from its own vertices, and
it has no other vertex. -/
structure IsBlock (s : Solid D) (l : Str) (b : RBlock D) : Prop where
  name : (split l)[1]? = some b.name
  tetras : b.tetras.map (List.map fun v => b.vertices[v]?) =
    ((s.tetras.zip s.names).filter fun e => e.2 = b.name).map fun e => e.1.map some
  vertices : b.vertices.Nodup ∧ ∀ v ∈ b.vertices, ∃ t, (t, b.name) ∈ s.tetras.zip s.names ∧ v ∈ t

/-- **The full property**: every line of a region gives the block of the region. -/
def RegionsRead (D : Type) [Num D] : Prop := ∀ (h : Headers D) (s : Solid D) (st : RState) (l : Str) (f : File) (bs : List (RBlock D)) (i : Bool),
  readBlocks h s st ([], false) l f = .ok (bs, i) → List.Forall₂ (IsBlock s) ((l :: f).filter isRegion) bs

theorem readBlock_is {h : Headers D} {s : Solid D} {st : RState} {l : Str} {b : RBlock D} {i : Bool} (e : readBlock h s st l = .ok (b, i)) :
    IsBlock s l b := by
  unfold readBlock at e
  obtain ⟨name, e1, e⟩ := bind_eq_ok.1 e
  dsimp only at e
  obtain ⟨vs, _, e⟩ := bind_eq_ok.1 e
  obtain ⟨ts, _, e⟩ := bind_eq_ok.1 e
  simp only [pure_eq, Res.ok.injEq, Prod.mk.injEq] at e
  obtain ⟨rfl, _⟩ := e
  obtain ⟨g1, _, g3, g4, g5⟩ := localCells_spec (used := []) List.nodup_nil (tetrasNamed s name)
  refine ⟨index_eq_ok.1 e1, ?_, g1, ?_⟩
  · show List.map _ (localCells [] (tetrasNamed s name)).2 = _
    rw [g4, List.map_map, tetrasNamed, List.map_map]
    refine List.map_congr_left fun e he => ?_
    simp only [Function.comp, List.map_map]
    refine List.map_congr_left fun v hv => ?_
    exact List.getElem?_idxOf (g3 e.1 (List.mem_map.2 ⟨e, he, rfl⟩) v hv)
  · intro v hv
    rcases g5 v hv with h0 | ⟨t, ht, hvt⟩
    · cases h0
    · obtain ⟨e, he, rfl⟩ := List.mem_map.1 ht
      obtain ⟨he1, he2⟩ := List.mem_filter.1 he
      have : e.2 = name := by simpa using he2
      exact ⟨e.1, by rw [← this]; exact he1, hvt⟩

theorem readBlocks_is {h : Headers D} {s : Solid D} {st : RState} {bs bs' : List (RBlock D)} {i i' : Bool} {l : Str} {f : File}
    (e : readBlocks h s st (bs, i) l f = .ok (bs', i')) :
    ∃ cs, bs' = bs ++ cs ∧ List.Forall₂ (IsBlock s) ((l :: f).takeWhile isRegion) cs := by
  induction f generalizing l bs i with
  | nil =>
    rw [readBlocks] at e
    split at e
    · rename_i hl
      obtain ⟨⟨b, j⟩, e1, e⟩ := bind_eq_ok.1 e
      simp only [pure_eq, Res.ok.injEq, Prod.mk.injEq] at e
      refine ⟨[b], e.1.symm, ?_⟩
      rw [List.takeWhile_cons_of_pos (show isRegion l = true from hl)]
      exact .cons (readBlock_is e1) .nil
    · rename_i hl
      simp only [Res.ok.injEq, Prod.mk.injEq] at e
      refine ⟨[], by simp [e.1], ?_⟩
      rw [List.takeWhile_cons_of_neg (show ¬isRegion l = true from hl)]
      exact .nil
  | cons x f ih =>
    rw [readBlocks] at e
    split at e
    · rename_i hl
      obtain ⟨⟨b, j⟩, e1, e⟩ := bind_eq_ok.1 e
      obtain ⟨cs, rfl, hc⟩ := ih e
      refine ⟨b :: cs, by simp, ?_⟩
      rw [List.takeWhile_cons_of_pos (show isRegion l = true from hl)]
      exact .cons (readBlock_is e1) hc
    · rename_i hl
      simp only [Res.ok.injEq, Prod.mk.injEq] at e
      refine ⟨[], by simp [e.1], ?_⟩
      rw [List.takeWhile_cons_of_neg (show ¬isRegion l = true from hl)]
      exact .nil

/-- **Every line of a region gives the block of the region** when no line lies between the lines of the regions. -/
theorem regions_read_partial {h : Headers D} {s : Solid D} {st : RState} {l : Str} {f ls rest : File} {bs : List (RBlock D)} {i : Bool}
    (e : readBlocks h s st ([], false) l f = .ok (bs, i)) (hf : l :: f = ls ++ rest) (hl : ∀ x ∈ ls, isRegion x = true)
    (hr : ∀ x ∈ rest, isRegion x = false) : List.Forall₂ (IsBlock s) ((l :: f).filter isRegion) bs := by
  obtain ⟨cs, rfl, hc⟩ := readBlocks_is e
  have e1 : (l :: f).takeWhile isRegion = ls := by
    rw [hf, List.takeWhile_append_of_pos hl]
    cases rest with
    | nil => simp
    | cons x rest => rw [List.takeWhile_cons_of_neg (by simp [hr x (by simp)])]; simp
  have e2 : (l :: f).filter isRegion = ls := by
    rw [hf, List.filter_append, List.filter_eq_self.2 hl, List.filter_eq_nil_iff.2 (by simpa using hr), List.append_nil]
  rw [e2, ← e1]
  exact hc

/-- **The blocks are those of the regions up to the first other line**: those after it are dropped without notice. -/
theorem regions_up_to {h : Headers D} {s : Solid D} {st : RState} {l : Str} {f : File} {bs : List (RBlock D)} {i : Bool}
    (e : readBlocks h s st ([], false) l f = .ok (bs, i)) : List.Forall₂ (IsBlock s) ((l :: f).takeWhile isRegion) bs := by
  obtain ⟨cs, rfl, hc⟩ := readBlocks_is e
  exact hc

theorem regions_not_read : ¬RegionsRead Int := by
  intro h
  have e : readBlocks (D := Int) ⟨{}, {}⟩ {} {} ([], false) cs!"MODEL_REGION a" [[], cs!"MODEL_REGION b"] = .ok ([{ name := cs!"a" }], false) := by
    decide +kernel
  have := (h _ _ _ _ _ _ _ e).length_eq
  exact absurd this (by decide)

/-- **A region without a name is undefined behaviour.** -/
theorem nameless_ub (h : Headers D) (s : Solid D) (st : RState) (bs : List (RBlock D)) (i : Bool) (l : Str) (f : File) (hl : isRegion l = true)
    (hw : (split l).length < 2) : readBlocks h s st (bs, i) l f = .ub := by
  have e : readBlock h s st l = .ub := by
    unfold readBlock
    have : Res.index (split l) 1 = .ub := by
      unfold Res.index
      rw [List.getElem?_eq_none (by omega)]
    rw [this]
    rfl
  have hl' : startsWith l cs!"MODEL_REGION" = true := hl
  cases f <;> simp [readBlocks, hl', e]

example : readBlocks (D := Int) ⟨{}, {}⟩ { points := [], tetras := [[4, 5, 6, 7], [1, 2, 3, 4]], names := [cs!"b", cs!"a"] } {} ([], false)
    cs!"MODEL_REGION a" [cs!"MODEL_REGION b", cs!"END"] =
    .ok ([{ name := cs!"a", vertices := [1, 2, 3, 4], tetras := [[0, 1, 2, 3]] }, { name := cs!"b", vertices := [4, 5, 6, 7], tetras := [[0, 1, 2, 3]] }],
      false) := by decide +kernel

/-! ## The lines before the model -/

/-- **The lines between the solid and the model are skipped**, whatever they are. -/
theorem skipped (s : Solid D) {l m : Str} {pre : File} (f : File) (hl : startsWith l cs!"MODEL" = false)
    (hp : ∀ x ∈ pre, startsWith x cs!"MODEL" = false) (hm : startsWith m cs!"MODEL" = true) :
    readSurfaces s l (pre ++ m :: f) = readSurfaces s m f := by
  have e : gotoKeyword cs!"MODEL" (pre ++ m :: f) = .ok (m, f) := by
    rw [gotoKeyword, Props.GocadTruncated.gotoKeyword?_skip' hp hm]
    rfl
  unfold readSurfaces
  simp [hl, hm, e]

/-- **A solid without a model is refused.** -/
theorem no_model (s : Solid D) {l : Str} {f : File} (hl : startsWith l cs!"MODEL" = false) (hf : ∀ x ∈ f, startsWith x cs!"MODEL" = false) :
    readSurfaces s l f = .throw := by
  have e : gotoKeyword cs!"MODEL" f = .throw := by
    rw [gotoKeyword, Props.GocadTruncated.gotoKeyword?_no_kw hf]
    rfl
  unfold readSurfaces
  simp [hl, e]

example : (readSurfaces (D := Int) { tetras := [] } cs!"# a" [cs!"# b", cs!"MODEL", cs!"SURFACE s"]).bind (fun r => .ok r.1.horizons) = .ok [cs!"s"] := by
  decide +kernel

end Verif.Props.LsoFile
