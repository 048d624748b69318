import Verif.Props.TSurf
import Verif.Props.VSet
import Verif.Props.PLine

/-!
# C151: saving what was loaded gives the same file
-/

set_option linter.unusedSectionVars false

namespace Verif.Props.GocadStable

open Verif Verif.Gocad Verif.GocadMesh Verif.GocadWalk

variable {D : Type} [Num D]

/-! ## Specification -/

/-- Writing what was read gives the same text: six digits are written, and reading keeps more. -/
class Settled (D : Type) [Num D] : Prop where
  fmt_round : ∀ d : D, Num.fmt (Num.round d) = Num.fmt d
  fmt_cast : ∀ d : D, Num.fmt (Num.castF (Num.round (Num.castF d))) = Num.fmt (Num.castF d)

instance : Settled Int := ⟨fun _ => rfl, fun _ => rfl⟩

/-- The attribute has the values of the column. -/
def HasColumn (nb : Nat) (a : Attr D) (p : Str × Column D) : Prop := a.name = p.1 ∧ ∀ v, v < nb → p.2.vals[v]? = some [a.val v]

/-- The mesh to save is the mesh that was loaded: its name, points and cells, and its properties in the same order. -/
structure Holds {S : Type} (m : Mesh S D) (l : Loaded S D) : Prop where
  name : m.name = l.name
  points : m.points = l.points
  cells : m.cells = l.cells
  props : List.Forall₂ (HasColumn m.points.length) (written m.attrs) l.store

/-! ## Surfaces and point sets -/

theorem toks_round [Settled D] (p : Pt D) : p.round.toks = p.toks := by
  simp [Pt.toks, Pt.round, Settled.fmt_round]

/-- The properties come back with the same text. -/
theorem same_values [Settled D] {as bs : List (Attr D)} {n v : Nat} (hv : v < n)
    (h : List.Forall₂ (HasColumn n) bs (as.map fun a => (a.name, loadedCol n a))) :
    bs.map Attr.name = as.map Attr.name ∧ valueToks bs v = valueToks as v := by
  induction as generalizing bs with
  | nil => cases h; exact ⟨rfl, rfl⟩
  | cons a as ih =>
    cases h with
    | cons h1 h2 =>
      obtain ⟨e1, e2⟩ := ih h2
      obtain ⟨k1, k2⟩ := h1
      have := k2 v hv
      simp only [loadedCol, List.getElem?_map, List.getElem?_range hv, Option.map_some, Option.some.injEq, List.cons.injEq, and_true] at this
      refine ⟨by simp [e1, k1], ?_⟩
      unfold valueToks at *
      rw [List.map_cons, List.map_cons, e2, ← this, Settled.fmt_cast]

theorem same_names {as bs : List (Attr D)} {n : Nat} (h : List.Forall₂ (HasColumn n) bs (as.map fun a => (a.name, loadedCol n a))) :
    bs.map Attr.name = as.map Attr.name := by
  induction as generalizing bs with
  | nil => cases h; rfl
  | cons a as ih =>
    cases h with
    | cons h1 h2 => simp [ih h2, h1.1]

theorem same_lines [Settled D] {kw : Str} {as bs : List (Attr D)} (k : Nat) (ps : List (Pt D))
    (h : ∀ v, v < k + ps.length → valueToks bs v = valueToks as v) :
    vrtxLines kw bs k (ps.map Pt.round) = vrtxLines kw as k ps := by
  induction ps generalizing k with
  | nil => rfl
  | cons p ps ih =>
    rw [List.map_cons, vrtxLines, vrtxLines, ih (k + 1) (fun v hv => h v (by simp only [List.length_cons]; omega))]
    unfold vrtxLine
    rw [toks_round, h k (by simp)]

/-- **C151, surfaces.**  A saved surface that is loaded and saved again gives the same file. -/
theorem ts_stable [LawfulNum D] [Settled D] {m : Mesh Tri D} (g : GoodSurf m) (hd : ((written m.attrs).map Attr.name).Nodup) {l : Loaded Tri D}
    (hl : loadTS (saveTS m) = .ok l) {m' : Mesh Tri D} (h : Holds m' l) (hkw : m'.attrs = [] ↔ m.attrs = []) : saveTS m' = saveTS m := by
  rw [TSurf.load_save g hd] at hl
  simp only [Res.ok.injEq] at hl
  subst hl
  obtain ⟨h1, h2, h3, h4⟩ := h
  simp only at h1 h2 h3 h4
  rw [h2, List.length_map] at h4
  have hk : vrtxKeyword m'.attrs = vrtxKeyword m.attrs := by
    unfold vrtxKeyword
    simp only [List.isEmpty_iff, hkw]
  unfold saveTS
  rw [h1, h2, h3, same_names h4, hk, same_lines 0 m.points (fun v hv => (same_values (by simpa using hv) h4).2)]

/-- **C151, point sets.** -/
theorem vs_stable [LawfulNum D] [Settled D] {m : Mesh Empty D} (g : GoodVSet m) (hne : m.points ≠ [])
    (hd : ((written m.attrs).map Attr.name).Nodup) {l : Loaded Empty D} (hl : loadVS (saveVS m) = .ok l) {m' : Mesh Empty D} (h : Holds m' l)
    (hkw : m'.attrs = [] ↔ m.attrs = []) : saveVS m' = saveVS m := by
  rw [VSet.load_save g hne hd] at hl
  simp only [Res.ok.injEq] at hl
  subst hl
  obtain ⟨h1, h2, h3, h4⟩ := h
  simp only at h1 h2 h3 h4
  rw [h2, List.length_map] at h4
  have hk : vrtxKeyword m'.attrs = vrtxKeyword m.attrs := by
    unfold vrtxKeyword
    simp only [List.isEmpty_iff, hkw]
  unfold saveVS
  rw [h1, h2, same_names h4, hk, same_lines 0 m.points (fun v hv => (same_values (by simpa using hv) h4).2)]

/-! ## Loading again -/

/-- The mesh to save is the mesh that was loaded, with its properties in any order. -/
structure HoldsAny {S : Type} (m : Mesh S D) (l : Loaded S D) : Prop where
  name : m.name = l.name
  points : m.points = l.points
  cells : m.cells = l.cells
  props : ∃ as : List (Attr D), as.Perm (written m.attrs) ∧ List.Forall₂ (HasColumn m.points.length) as l.store

theorem round_round [LawfulNum D] [Settled D] (d : D) : Num.round (Num.round d) = Num.round d := by
  have := LawfulNum.parse_fmt (Num.round d)
  rw [Settled.fmt_round, LawfulNum.parse_fmt] at this
  exact (Option.some.inj this).symm

theorem round_cast [LawfulNum D] [Settled D] (d : D) : Num.round (Num.castF (Num.round (Num.castF d))) = Num.round (Num.castF d) := by
  have := LawfulNum.parse_fmt (Num.castF (Num.round (Num.castF d)))
  rw [Settled.fmt_cast, LawfulNum.parse_fmt] at this
  exact (Option.some.inj this).symm

theorem same_columns [LawfulNum D] [Settled D] {as bs : List (Attr D)} {n : Nat} (h : List.Forall₂ (HasColumn n) bs (as.map fun a => (a.name, loadedCol n a))) :
    (bs.map fun a => (a.name, loadedCol n a)) = as.map fun a => (a.name, loadedCol n a) := by
  induction as generalizing bs with
  | nil => cases h; rfl
  | cons a as ih =>
    cases h with
    | @cons b _ bs' _ h1 h2 =>
      rw [List.map_cons, List.map_cons, ih h2, h1.1]
      congr 2
      unfold loadedCol
      congr 1
      apply List.map_congr_left
      intro v hv
      have := h1.2 v (List.mem_range.1 hv)
      simp only [loadedCol, List.getElem?_map, List.getElem?_range (List.mem_range.1 hv), Option.map_some, Option.some.injEq, List.cons.injEq, and_true] at this
      rw [← this, round_cast]

theorem points_round [LawfulNum D] [Settled D] (ps : List (Pt D)) : (ps.map Pt.round).map Pt.round = ps.map Pt.round := by
  rw [List.map_map]
  apply List.map_congr_left
  intro p _
  simp [Pt.round, round_round]

/-- **C151, surfaces.**  A loaded surface that is saved and loaded again is the same, whatever the order of its properties. -/
theorem ts_reload [LawfulNum D] [Settled D] {m : Mesh Tri D} (g : GoodSurf m) (hd : ((written m.attrs).map Attr.name).Nodup) {l : Loaded Tri D}
    (hl : loadTS (saveTS m) = .ok l) {m' : Mesh Tri D} (h : HoldsAny m' l) :
    ∃ l', loadTS (saveTS m') = .ok l' ∧ l'.name = l.name ∧ l'.points = l.points ∧ l'.cells = l.cells ∧ l'.store.Perm l.store := by
  rw [TSurf.load_save g hd] at hl
  simp only [Res.ok.injEq] at hl
  subst hl
  obtain ⟨h1, h2, h3, as, h4, h5⟩ := h
  simp only at h1 h2 h3 h5
  rw [h2, List.length_map] at h5
  have hn := same_names h5
  have hp : ((written m'.attrs).map Attr.name).Perm ((written m.attrs).map Attr.name) := hn ▸ (h4.map Attr.name).symm
  have g' : GoodSurf m' := ⟨by rw [h1]; exact g.name, fun s hs => g.names s (hp.mem_iff.1 hs), by rw [h2, h3, List.length_map]; exact g.tris,
    by rw [h2, List.length_map]; exact g.size⟩
  refine ⟨_, TSurf.load_save g' (hp.nodup_iff.2 hd), h1, by simp only; rw [h2, points_round], h3, ?_⟩
  simp only
  rw [h2, List.length_map, ← same_columns h5]
  exact (h4.map _).symm

/-- **C151, point sets.** -/
theorem vs_reload [LawfulNum D] [Settled D] {m : Mesh Empty D} (g : GoodVSet m) (hne : m.points ≠ []) (hd : ((written m.attrs).map Attr.name).Nodup)
    {l : Loaded Empty D} (hl : loadVS (saveVS m) = .ok l) {m' : Mesh Empty D} (h : HoldsAny m' l) :
    ∃ l', loadVS (saveVS m') = .ok l' ∧ l'.name = l.name ∧ l'.points = l.points ∧ l'.store.Perm l.store := by
  rw [VSet.load_save g hne hd] at hl
  simp only [Res.ok.injEq] at hl
  subst hl
  obtain ⟨h1, h2, h3, as, h4, h5⟩ := h
  simp only at h1 h2 h3 h5
  rw [h2, List.length_map] at h5
  have hn := same_names h5
  have hp : ((written m'.attrs).map Attr.name).Perm ((written m.attrs).map Attr.name) := hn ▸ (h4.map Attr.name).symm
  have g' : GoodVSet m' := ⟨by rw [h1]; exact g.name, fun s hs => g.names s (hp.mem_iff.1 hs), by rw [h2, List.length_map]; exact g.size⟩
  refine ⟨_, VSet.load_save g' (by rw [h2]; simpa using hne) (hp.nodup_iff.2 hd), h1, by simp only; rw [h2, points_round], ?_⟩
  simp only
  rw [h2, List.length_map, ← same_columns h5]
  exact (h4.map _).symm

/-! ## Lines -/

/-- The edges of polylines of `ks` edges each, on consecutive vertices from `n` on. -/
def runEdges : Nat → List Nat → List Edge
  | _, [] => []
  | n, k :: ks => runSegs n k ++ runEdges (n + k + 1) ks

theorem runSegs_succ (n k : Nat) : runSegs n (k + 1) = (n, n + 1) :: runSegs (n + 1) k := by
  unfold runSegs
  rw [List.range_succ_eq_map, List.map_cons, List.map_map]
  simp only [Nat.add_zero, List.cons.injEq, true_and]
  apply List.map_congr_left
  intro i _
  simp only [Function.comp, Nat.succ_eq_add_one, Prod.mk.injEq]
  omega

theorem runSegs_length (n k : Nat) : (runSegs n k).length = k := by simp [runSegs]

theorem runEdges_ge {n : Nat} {ks : List Nat} : ∀ e ∈ runEdges n ks, n ≤ e.1 ∧ n ≤ e.2 := by
  induction ks generalizing n with
  | nil => simp [runEdges]
  | cons k ks ih =>
    intro e he
    rw [runEdges] at he
    rcases List.mem_append.1 he with he | he
    · obtain ⟨i, -, rfl⟩ := List.mem_map.1 he
      exact ⟨by simp, by simp; omega⟩
    · have := ih e he
      omega

theorem around_append (v i : Nat) (a b : List Edge) : edgesAroundFrom v i (a ++ b) = edgesAroundFrom v i a ++ edgesAroundFrom v (i + a.length) b := by
  induction a generalizing i with
  | nil => simp [edgesAroundFrom]
  | cons e a ih =>
    rw [List.cons_append, edgesAroundFrom, ih, edgesAroundFrom]
    simp only [List.length_cons, List.append_assoc]
    rw [show i + 1 + a.length = i + (a.length + 1) by omega]

theorem around_none {v i : Nat} {a : List Edge} (h : ∀ e ∈ a, e.1 ≠ v ∧ e.2 ≠ v) : edgesAroundFrom v i a = [] := by
  induction a generalizing i with
  | nil => rfl
  | cons e a ih =>
    have h1 := h e (by simp)
    rw [edgesAroundFrom, if_neg h1.1, if_neg h1.2, ih (fun x hx => h x (by simp [hx]))]
    rfl

/-- The edges around the vertex `j` of a polyline of `k` edges. -/
def around (i k j : Nat) : List EV := (if 0 < j then [(i + j - 1, true)] else []) ++ if j < k then [(i + j, false)] else []

theorem around_run (n i k j : Nat) (hj : j ≤ k) : edgesAroundFrom (n + j) i (runSegs n k) = around i k j := by
  induction k generalizing n i j with
  | zero =>
    have : j = 0 := by omega
    subst this
    rfl
  | succ k ih =>
    rw [runSegs_succ, edgesAroundFrom]
    cases j with
    | zero =>
      rw [around_none]
      · simp [around]
      · intro e he
        obtain ⟨a, -, rfl⟩ := List.mem_map.1 he
        simp only
        omega
    | succ j =>
      rw [show n + (j + 1) = n + 1 + j by omega, ih (n + 1) (i + 1) j (by omega), if_neg (by simp only; omega)]
      cases j with
      | zero => simp [around]
      | succ j =>
        rw [if_neg (by simp only; omega)]
        simp only [around]
        simp only [Nat.zero_lt_succ, if_true, List.nil_append, Nat.add_lt_add_iff_right]
        rw [show i + 1 + (j + 1) - 1 = i + (j + 1 + 1) - 1 by omega, show i + 1 + (j + 1) = i + (j + 1 + 1) by omega]

/-- Edges before the polyline, the polyline, edges after it. -/
theorem around_in {pre post : List Edge} {n k : Nat} (hpre : ∀ e ∈ pre, e.1 < n ∧ e.2 < n) (hpost : ∀ e ∈ post, n + k + 1 ≤ e.1 ∧ n + k + 1 ≤ e.2)
    {j : Nat} (hj : j ≤ k) : edgesAround (pre ++ (runSegs n k ++ post)) (n + j) = around pre.length k j := by
  unfold edgesAround
  rw [around_append, around_append, around_none, around_none (a := post), Nat.zero_add, around_run n _ k j hj]
  · simp
  · intro e he
    have := hpost e he
    omega
  · intro e he
    have := hpre e he
    omega

theorem evVertex_run {pre post : List Edge} {n k j : Nat} (hj : j < k) (b : Bool) :
    evVertex (pre ++ (runSegs n k ++ post)) (pre.length + j, b) = .ok (if b then n + j + 1 else n + j) := by
  unfold evVertex
  have : Res.index (pre ++ (runSegs n k ++ post)) (pre.length + j) = .ok (n + j, n + j + 1) := by
    rw [Res.index_eq_ok]
    rw [List.getElem?_append_right (by omega), List.getElem?_append_left (by rw [runSegs_length]; omega)]
    simp [runSegs, hj]
  rw [this, Res.ok_bind]
  rfl

/-- The half-edges of a walk along a polyline, from its edge `j` on. -/
def steps (i k j : Nat) : List EV := (List.range (k - j)).map (fun a => (i + j + a, false)) ++ [(i + k - 1, true)]

theorem steps_succ (i k j : Nat) (h : j < k) : steps i k j = (i + j, false) :: steps i k (j + 1) := by
  unfold steps
  rw [show k - j = (k - (j + 1)) + 1 by omega, List.range_succ_eq_map, List.map_cons, List.map_map]
  simp only [Nat.add_zero, List.cons_append, List.cons.injEq, true_and]
  congr 1
  apply List.map_congr_left
  intro a _
  simp only [Function.comp, Nat.succ_eq_add_one, Prod.mk.injEq, and_true]
  omega

theorem walk_run {pre post : List Edge} {n k : Nat} (hpre : ∀ e ∈ pre, e.1 < n ∧ e.2 < n) (hpost : ∀ e ∈ post, n + k + 1 ≤ e.1 ∧ n + k + 1 ≤ e.2)
    (r : Nat) {j fuel : Nat} {done : List Nat} (hr : j + r + 1 = k) (hf : r < fuel) (hd : ∀ i ∈ done, i < pre.length + j) :
    ∃ done', walk (pre ++ (runSegs n k ++ post)) fuel done (pre.length + j, false) = .ok (steps pre.length k j, done') ∧
      ∀ i, i ∈ done' ↔ i ∈ done ∨ (pre.length + j ≤ i ∧ i < pre.length + k) := by
  induction r generalizing j fuel done with
  | zero =>
    obtain ⟨fuel, rfl⟩ : ∃ f, fuel = f + 1 := ⟨fuel - 1, by omega⟩
    refine ⟨(pre.length + j) :: done, ?_, fun i => ?_⟩
    rotate_left
    · rw [List.mem_cons]
      constructor
      · rintro (rfl | h)
        · exact Or.inr (by omega)
        · exact Or.inl h
      · rintro (h | h)
        · exact Or.inr h
        · exact Or.inl (by omega)
    rw [walk]
    simp only [Bool.not_false]
    rw [evVertex_run (by omega) true, Res.ok_bind, if_pos rfl, Nat.add_assoc n, around_in hpre hpost (by omega)]
    have ha : around pre.length k (j + 1) = [(pre.length + j, true)] := by
      unfold around
      rw [if_pos (by omega), if_neg (by omega)]
      rfl
    rw [ha, if_neg (by simp)]
    rw [steps_succ _ _ _ (by omega)]
    have : k - (j + 1) = 0 := by omega
    simp only [steps, this, List.range_zero, List.map_nil, List.nil_append]
    rw [show pre.length + k - 1 = pre.length + j by omega]
    rfl
  | succ r ih =>
    obtain ⟨fuel, rfl⟩ : ∃ f, fuel = f + 1 := ⟨fuel - 1, by omega⟩
    have hd' : ∀ i ∈ (pre.length + j) :: done, i < pre.length + (j + 1) := by
      intro i hi
      rcases List.mem_cons.1 hi with rfl | hi
      · omega
      · have := hd i hi; omega
    obtain ⟨done', h1, h2⟩ := ih (j := j + 1) (fuel := fuel) (done := (pre.length + j) :: done) (by omega) (by omega) hd'
    refine ⟨done', ?_, fun i => ?_⟩
    rotate_left
    · rw [h2, List.mem_cons]
      constructor
      · rintro ((rfl | h) | h)
        · exact Or.inr (by omega)
        · exact Or.inl h
        · exact Or.inr (by omega)
      · rintro (h | h)
        · exact Or.inl (Or.inr h)
        · by_cases e : i = pre.length + j
          · exact Or.inl (Or.inl e)
          · exact Or.inr (by omega)
    rw [walk]
    simp only [Bool.not_false]
    rw [evVertex_run (by omega) true, Res.ok_bind, if_pos rfl, Nat.add_assoc n, around_in hpre hpost (by omega)]
    have ha : around pre.length k (j + 1) = [(pre.length + j, true), (pre.length + (j + 1), false)] := by
      unfold around
      rw [if_pos (by omega), if_pos (by omega)]
      rfl
    rw [ha, if_pos (by simp)]
    have e1 : isDone ((pre.length + j) :: done) (pre.length + j) = true := by simp [isDone]
    have e2 : isDone ((pre.length + j) :: done) (pre.length + (j + 1)) = false := by
      unfold isDone
      rw [← Bool.not_eq_true, List.contains_iff_mem]
      intro hm
      have := hd' _ hm
      omega
    simp only [List.filter_cons, List.filter_nil, e1, e2, Bool.not_true, Bool.not_false, if_true, Bool.false_eq_true, if_false, List.getLast?_singleton]
    rw [h1, Res.ok_bind, steps_succ pre.length k j (by omega)]
    rfl

/-- The vertices of a polyline. -/
def run (n k : Nat) : List Nat := (List.range (k + 1)).map (n + ·)

theorem steps_vertices {pre post : List Edge} {n k : Nat} (hk : 0 < k) :
    Res.mapM' (evVertex (pre ++ (runSegs n k ++ post))) (steps pre.length k 0) = .ok (run n k) := by
  have h : ∀ e ∈ steps pre.length k 0, evVertex (pre ++ (runSegs n k ++ post)) e = .ok (if e.2 then n + k else n + (e.1 - pre.length)) := by
    intro e he
    rcases List.mem_append.1 he with he | he
    · obtain ⟨a, ha, rfl⟩ := List.mem_map.1 he
      have ha := List.mem_range.1 ha
      rw [Nat.add_zero, evVertex_run (by omega) false]
      simp
    · simp only [List.mem_cons, List.not_mem_nil, or_false] at he
      subst he
      rw [show pre.length + k - 1 = pre.length + (k - 1) by omega, evVertex_run (by omega) true]
      simp only [if_true, Res.ok.injEq]
      omega
  rw [Res.mapM'_ok h]
  simp only [steps, run, List.map_append, List.map_map, List.map_cons, List.map_nil, if_true, List.range_succ, Res.ok.injEq, Nat.sub_zero]
  congr 1
  apply List.map_congr_left
  intro a _
  simp

theorem steps_length (i k : Nat) : (steps i k 0).length = k + 1 := by simp [steps]

/-- Text of a polyline. -/
def runText (kw : Str) (attrs : List (Attr D)) (pts : List (Pt D)) (off n k : Nat) : File :=
  cs!"ILINE" :: (vlines kw attrs pts off (run n k) ++ segLines off k)

theorem writeIline_run {m : Mesh Edge D} {pre post : List Edge} {n k : Nat} (hm : m.cells = pre ++ (runSegs n k ++ post))
    (hp : n + k < m.points.length) (hk : 0 < k) (hpre : ∀ e ∈ pre, e.1 < n ∧ e.2 < n)
    (hpost : ∀ e ∈ post, n + k + 1 ≤ e.1 ∧ n + k + 1 ≤ e.2) (kw : Str) (attrs : List (Attr D)) {s : PLState} (hd : ∀ i ∈ s.done, i < pre.length) :
    ∃ s', writeIline m kw attrs (pre.length, false) s = .ok s' ∧ s'.out = s.out ++ runText kw attrs m.points s.offset n k ∧
      s'.offset = s.offset + (k + 1) ∧ s'.nbDone = s.nbDone + k ∧ ∀ i, i ∈ s'.done ↔ i ∈ s.done ∨ (pre.length ≤ i ∧ i < pre.length + k) := by
  have hlen : k - 1 < m.cells.length + 1 := by
    rw [hm]
    simp only [List.length_append, runSegs_length]
    omega
  obtain ⟨done', h1, h2⟩ := walk_run hpre hpost (k - 1) (j := 0) (fuel := m.cells.length + 1) (done := s.done) (by omega) hlen (by simpa using hd)
  rw [← hm] at h1
  have h3 : Res.mapM' (evVertex m.cells) (steps pre.length k 0) = .ok (run n k) := by
    rw [hm]
    exact steps_vertices hk
  have h1 : walk m.cells (m.cells.length + 1) s.done (pre.length, false) = .ok (steps pre.length k 0, done') := h1
  unfold writeIline
  rw [h1]
  simp only [Res.ok_bind]
  rw [h3, Res.ok_bind, ilineVrtx_eq _ _ (by
    intro v hv
    obtain ⟨a, ha, rfl⟩ := List.mem_map.1 hv
    have := List.mem_range.1 ha
    omega), Res.ok_bind]
  refine ⟨_, rfl, ?_, ?_, ?_, by simpa using h2⟩
  · simp [steps_length, runText]
  · simp [steps_length]
  · simp [steps_length]

/-- Where the polylines start and end. -/
def tips : Nat → List Nat → List EV
  | _, [] => []
  | i, k :: ks => (i, false) :: (i + k - 1, true) :: tips (i + k) ks

/-- Number of vertices of polylines. -/
def total (ks : List Nat) : Nat := (ks.map (· + 1)).sum

/-- Text of polylines. -/
def runsText (kw : Str) (attrs : List (Attr D)) (pts : List (Pt D)) : Nat → Nat → List Nat → File
  | _, _, [] => []
  | off, n, k :: ks => runText kw attrs pts off n k ++ runsText kw attrs pts (off + (k + 1)) (n + k + 1) ks

theorem pre_next {pre : List Edge} {n k : Nat} (hpre : ∀ e ∈ pre, e.1 < n ∧ e.2 < n) : ∀ e ∈ pre ++ runSegs n k, e.1 < n + k + 1 ∧ e.2 < n + k + 1 := by
  intro e he
  rcases List.mem_append.1 he with he | he
  · have := hpre e he
    omega
  · obtain ⟨i, hi, rfl⟩ := List.mem_map.1 he
    have := List.mem_range.1 hi
    simp only
    omega

theorem runs_post {post : List Edge} {n k : Nat} {ks : List Nat} (h : ∀ e ∈ post, n + (k + 1 + total ks) ≤ e.1 ∧ n + (k + 1 + total ks) ≤ e.2) :
    ∀ e ∈ runEdges (n + k + 1) ks ++ post, n + k + 1 ≤ e.1 ∧ n + k + 1 ≤ e.2 := by
  intro e he
  rcases List.mem_append.1 he with he | he
  · exact runEdges_ge e he
  · have := h e he
    omega

theorem openIlines_runs {m : Mesh Edge D} (ks : List Nat) (hks : ∀ k ∈ ks, 0 < k) {pre post : List Edge} {n : Nat}
    (hm : m.cells = pre ++ (runEdges n ks ++ post)) (hp : n + total ks ≤ m.points.length) (hpre : ∀ e ∈ pre, e.1 < n ∧ e.2 < n)
    (hpost : ∀ e ∈ post, n + total ks ≤ e.1 ∧ n + total ks ≤ e.2) (kw : Str) (attrs : List (Attr D)) {s : PLState}
    (hd : ∀ i ∈ s.done, i < pre.length) :
    ∃ s', openIlines m kw attrs (tips pre.length ks) s = .ok s' ∧ s'.out = s.out ++ runsText kw attrs m.points s.offset n ks ∧
      s'.nbDone = s.nbDone + ks.sum ∧ s'.offset = s.offset + total ks ∧
      ∀ i, i ∈ s'.done ↔ i ∈ s.done ∨ (pre.length ≤ i ∧ i < pre.length + ks.sum) := by
  induction ks generalizing pre n s with
  | nil => exact ⟨s, rfl, by simp [runsText], by simp, by simp [total], fun i => ⟨Or.inl, fun h => h.elim id fun h => by simp at h; omega⟩⟩
  | cons k ks ih =>
    have hk := hks k (by simp)
    have htot : total (k :: ks) = k + 1 + total ks := by simp [total]
    rw [htot] at hpost
    rw [runEdges, List.append_assoc] at hm
    obtain ⟨s1, e1, o1, f1, n1, d1⟩ := writeIline_run (s := s) hm (by omega) hk hpre (runs_post hpost) kw attrs hd
    obtain ⟨s2, e2, o2, n2, f2, d2⟩ := ih (fun x hx => hks x (by simp [hx])) (pre := pre ++ runSegs n k) (n := n + k + 1) (by rw [hm, List.append_assoc])
      (by omega) (pre_next hpre) (fun e he => by have := hpost e he; omega) (s := s1) (by
        intro i hi
        rw [List.length_append, runSegs_length]
        rcases (d1 i).1 hi with h | h
        · have := hd i h; omega
        · omega)
    refine ⟨s2, ?_, ?_, ?_, by rw [f2, f1, htot]; omega, fun i => ?_⟩
    rotate_right
    · rw [d2, d1, List.length_append, runSegs_length, List.sum_cons]
      by_cases h : i ∈ s.done
      · simp only [h, true_or]
      · simp only [h, false_or]
        omega
    · have h1 : isDone s.done pre.length = false := by
        unfold isDone
        rw [← Bool.not_eq_true, List.contains_iff_mem]
        intro h
        have := hd _ h
        omega
      have h2 : isDone s1.done (pre.length + k - 1) = true := by
        unfold isDone
        rw [List.contains_iff_mem, d1]
        right
        omega
      rw [tips, openIlines]
      simp only [h1, Bool.false_eq_true, if_false]
      rw [e1, Res.ok_bind, openIlines]
      simp only [h2, if_true]
      rw [List.length_append, runSegs_length] at e2
      exact e2
    · rw [o2, o1, f1, runsText, List.append_assoc]
    · rw [n2, n1, List.sum_cons]
      omega

theorem tips_eq (edges : List Edge) (ks : List Nat) (hks : ∀ k ∈ ks, 0 < k) {pre post : List Edge} {n : Nat}
    (hm : edges = pre ++ (runEdges n ks ++ post)) (hpre : ∀ e ∈ pre, e.1 < n ∧ e.2 < n)
    (hpost : ∀ e ∈ post, n + total ks ≤ e.1 ∧ n + total ks ≤ e.2) :
    ((List.range' n (total ks)).filter fun v => (edgesAround edges v).length != 2).flatMap (edgesAround edges) = tips pre.length ks := by
  induction ks generalizing pre n with
  | nil => rfl
  | cons k ks ih =>
    have hk := hks k (by simp)
    obtain ⟨r, rfl⟩ : ∃ r, k = r + 1 := ⟨k - 1, by omega⟩
    have htot : total ((r + 1) :: ks) = (r + 1 + 1) + total ks := by simp [total]
    rw [htot] at hpost
    rw [runEdges, List.append_assoc] at hm
    have ha : ∀ j, j ≤ r + 1 → edgesAround edges (n + j) = around pre.length (r + 1) j := by
      intro j hj
      rw [hm]
      exact around_in hpre (runs_post hpost) hj
    have hmid : (List.range' (n + 1) r).filter (fun v => (edgesAround edges v).length != 2) = [] := by
      rw [List.filter_eq_nil_iff]
      intro v hv
      rw [List.mem_range'_1] at hv
      have := ha (v - n) (by omega)
      rw [show n + (v - n) = v by omega] at this
      rw [this]
      unfold around
      rw [if_pos (by omega), if_pos (by omega)]
      simp
    have h0 := ha 0 (by omega)
    have hl := ha (r + 1) (by omega)
    have e0 : around pre.length (r + 1) 0 = [(pre.length, false)] := by simp [around]
    have el : around pre.length (r + 1) (r + 1) = [(pre.length + (r + 1) - 1, true)] := by simp [around]
    rw [e0, Nat.add_zero] at h0
    rw [el] at hl
    have ih' := ih (fun x hx => hks x (by simp [hx])) (pre := pre ++ runSegs n (r + 1)) (n := n + (r + 1) + 1) (by rw [hm, List.append_assoc])
      (pre_next hpre) (fun e he => by have := hpost e he; omega)
    rw [List.length_append, runSegs_length] at ih'
    rw [htot, ← List.range'_append_1, List.filter_append, List.flatMap_append]
    rw [show n + (r + 1 + 1) = n + (r + 1) + 1 by omega, ih', List.range'_succ, List.range'_concat, List.filter_cons, List.filter_append, hmid]
    rw [h0]
    simp only [List.length_cons, List.length_nil, List.nil_append, List.filter_cons, List.filter_nil]
    rw [show n + 1 + 1 * r = n + (r + 1) by omega, hl]
    simp only [List.length_cons, List.length_nil]
    rw [if_pos (by decide), if_pos (by decide), List.flatMap_cons, List.flatMap_cons, List.flatMap_nil, h0, hl, tips]
    rfl

theorem runEdges_length (n : Nat) (ks : List Nat) : (runEdges n ks).length = ks.sum := by
  induction ks generalizing n with
  | nil => rfl
  | cons k ks ih => rw [runEdges, List.length_append, runSegs_length, ih, List.sum_cons]

/-- A curve made of polylines on consecutive vertices is written polyline by polyline. -/
theorem save_runs {m : Mesh Edge D} (ks : List Nat) (hks : ∀ k ∈ ks, 0 < k) (hm : m.cells = runEdges 0 ks) (hp : m.points.length = total ks) :
    savePL m = .ok (PLine.headPL m ++ runsText (vrtxKeyword m.attrs) (writtenPL m.attrs) m.points 1 0 ks ++ [cs!"END"]) := by
  obtain ⟨s, e, o, nb, -⟩ := openIlines_runs ks hks (pre := []) (post := []) (n := 0) (by simpa using hm) (by omega) (by simp) (by simp) (vrtxKeyword m.attrs) (writtenPL m.attrs) (s := {}) (by simp)
  have ht : (startPoints m).flatMap (edgesAround m.cells) = tips 0 ks := by
    unfold startPoints
    rw [hp, List.range_eq_range']
    exact tips_eq m.cells ks hks (pre := []) (post := []) (n := 0) (by simpa using hm) (by simp) (by simp)
  have hnb : s.nbDone = m.cells.length := by
    rw [nb, hm, runEdges_length]
    simp
  have hc : closedIlines m (vrtxKeyword m.attrs) (writtenPL m.attrs) m.cells.length s = .ok s := by
    cases hl : m.cells.length with
    | zero => rw [closedIlines, if_pos hnb]
    | succ k => rw [closedIlines, if_pos hnb]
  unfold savePL writeIlines
  simp only
  rw [ht]
  simp only [List.length_nil] at e
  rw [e, Res.ok_bind, hc, Res.ok_bind, o]
  rfl

theorem vlines_same [Settled D] {m : Mesh Edge D} {kw : Str} (vs : List Nat) {P rest : List (Pt D)} {n : Nat} (id : Nat)
    (h : P.drop n = vs.map (fun v => (ptAt m v).round) ++ rest) : vlines kw [] m.points id vs = vlines kw [] P id (List.range' n vs.length) := by
  induction vs generalizing n id with
  | nil => rfl
  | cons v vs ih =>
    rw [List.length_cons, List.range'_succ, vlines, vlines]
    rw [List.map_cons, List.cons_append] at h
    have h0 : P[n]? = some (ptAt m v).round := by
      have := congrArg (fun l => l[0]?) h
      simpa using this
    have h1 : P.drop (n + 1) = vs.map (fun v => (ptAt m v).round) ++ rest := by
      rw [← List.drop_drop, h]
      rfl
    rw [ih (id + 1) h1]
    congr 1
    have h2 : P.getD n ⟨Num.zero, Num.zero, Num.zero⟩ = (ptAt m v).round := by simp [h0]
    unfold vrtxLine valueToks
    rw [h2, toks_round]
    rfl

/-- Number of edges of a line of the file. -/
def nbEdges (edges : List Edge) (l : Ln) : Nat := (l.verts edges).length - 1

theorem open_length {edges : List Edge} {l : Ln} (h : l.closed = false) (hne : l.hs ≠ []) : (l.verts edges).length = l.hs.length + 1 := by
  unfold Ln.verts
  rw [h]
  obtain ⟨x, hx⟩ : ∃ x, l.hs.getLast? = some x := by
    cases e : l.hs.getLast? with
    | none => exact absurd (List.getLast?_eq_none_iff.1 e) hne
    | some x => exact ⟨x, rfl⟩
  simp [hx]

theorem lnsSegs_open {edges : List Edge} (n : Nat) {ls : List Ln} (h : ∀ l ∈ ls, l.closed = false ∧ l.hs ≠ []) :
    lnsSegs edges n ls = runEdges n (ls.map (nbEdges edges)) := by
  induction ls generalizing n with
  | nil => rfl
  | cons l ls ih =>
    have hl := h l (by simp)
    have hlen := open_length (edges := edges) hl.1 hl.2
    rw [lnsSegs, List.map_cons, runEdges, ih _ (fun a ha => h a (by simp [ha])), lnSegs, hl.1]
    simp only [Bool.false_eq_true, if_false, List.append_nil, nbEdges]
    rw [show n + ((l.verts edges).length - 1) + 1 = n + (l.verts edges).length by omega]

theorem lnsText_open [Settled D] {m : Mesh Edge D} {kw : Str} (off n : Nat) {ls : List Ln} (h : ∀ l ∈ ls, l.closed = false ∧ l.hs ≠ []) {P rest : List (Pt D)}
    (hP : P.drop n = (ls.flatMap (Ln.verts m.cells)).map (fun v => (ptAt m v).round) ++ rest) :
    lnsText m kw [] off ls = runsText kw [] P off n (ls.map (nbEdges m.cells)) := by
  induction ls generalizing off n with
  | nil => rfl
  | cons l ls ih =>
    have hl := h l (by simp)
    have hlen := open_length (edges := m.cells) hl.1 hl.2
    rw [List.flatMap_cons, List.map_append, List.append_assoc] at hP
    have hnext : P.drop (n + nbEdges m.cells l + 1) = (ls.flatMap (Ln.verts m.cells)).map (fun v => (ptAt m v).round) ++ rest := by
      rw [show n + nbEdges m.cells l + 1 = n + (l.verts m.cells).length by unfold nbEdges; omega, ← List.drop_drop, hP, List.drop_append_of_le_length (by simp)]
      simp
    rw [lnsText, List.map_cons, runsText, ← ih (off + (nbEdges m.cells l + 1)) _ (fun a ha => h a (by simp [ha])) hnext]
    rw [show nbEdges m.cells l + 1 = (l.verts m.cells).length by unfold nbEdges; omega]
    congr 1
    unfold lnText runText
    rw [hl.1, vlines_same _ off hP]
    have hr : run n (nbEdges m.cells l) = List.range' n (l.verts m.cells).length := by
      rw [run, List.range'_eq_map_range, show nbEdges m.cells l + 1 = (l.verts m.cells).length by unfold nbEdges; omega]
    rw [hr]
    simp [nbEdges]

/-- **C151, lines.**  A curve without closed loop and without properties that is saved, loaded and saved again gives the same file. -/
theorem pl_stable [LawfulNum D] [Settled D] {m : Mesh Edge D} (ok : EdgesOk m) (hne : m.cells ≠ []) (hl : PLine.LoopFree m.cells)
    (hW : 2 * m.cells.length < W) (hat : writtenPL m.attrs = []) {f : File} (hf : savePL m = .ok f) {l : Loaded Edge D} (hr : loadPL f = .ok l)
    {m' : Mesh Edge D} (hp : m'.points = l.points) (hc : m'.cells = l.cells) (hat' : writtenPL m'.attrs = []) (hkw : m'.attrs = [] ↔ m.attrs = []) :
    savePL m' = .ok f := by
  obtain ⟨s, opens, loops, h1, h2, h3, h4, h5, done, h6, h7, h8, h9⟩ := writeIlines_spec ok
  have hnl : loops = [] := h9 (PLine.all_open hl h7 h8)
  subst hnl
  rw [List.append_nil] at h2 h3 h4
  have hone : opens ≠ [] := by
    rintro rfl
    have := h3.length_eq
    simp at this
    exact hne (List.length_eq_zero_iff.1 this.symm)
  have hnb := nbVerts_le (edges := m.cells) (fun l hl => (h4 l hl).2)
  rw [h3.length_eq, List.length_range] at hnb
  have hlt := lnsSegs_lt (edges := m.cells) (n := 0) h5
  have hlen : ((opens.flatMap (Ln.verts m.cells)).map fun v => Pt.round (ptAt m v)).length = nbVerts m.cells opens := by
    simp [nbVerts, List.length_flatMap]
  have hsave : savePL m = .ok (PLine.headPL m ++ s.out ++ [cs!"END"]) := by
    unfold savePL
    rw [h1]
    rfl
  rw [hsave] at hf
  simp only [Res.ok.injEq] at hf
  subst hf
  rw [h2, PLine.load_lines m hone (fun l hl => (h4 l hl).2) (fun e he => by have := hlt e he; omega),
    PLine.build_ok _ _ _ (fun e he => by rw [hlen]; have := hlt e he; omega) (fun e he => by have := hlt e he; omega)] at hr
  simp only [Res.ok.injEq] at hr
  subst hr
  simp only at hp hc
  have ho : ∀ l ∈ opens, l.closed = false ∧ l.hs ≠ [] := fun l hl => ⟨h5 l hl, (h4 l hl).2⟩
  have hks : ∀ k ∈ opens.map (nbEdges m.cells), 0 < k := by
    intro k hk
    obtain ⟨l, hl, rfl⟩ := List.mem_map.1 hk
    have := open_length (edges := m.cells) (ho l hl).1 (ho l hl).2
    have := List.length_pos_iff.2 (ho l hl).2
    unfold nbEdges
    omega
  have htot : total (opens.map (nbEdges m.cells)) = nbVerts m.cells opens := by
    unfold total nbVerts
    rw [List.map_map]
    congr 1
    apply List.map_congr_left
    intro l hl
    have := open_length (edges := m.cells) (ho l hl).1 (ho l hl).2
    simp only [Function.comp, nbEdges]
    omega
  have hk : vrtxKeyword m'.attrs = vrtxKeyword m.attrs := by
    unfold vrtxKeyword
    simp only [List.isEmpty_iff, hkw]
  rw [save_runs (opens.map (nbEdges m.cells)) hks (by rw [hc, lnsSegs_open 0 ho]) (by rw [hp, hlen, htot]), hk, hat', h2, hat, hp]
  rw [← lnsText_open 1 0 ho (P := (opens.flatMap (Ln.verts m.cells)).map fun v => (ptAt m v).round) (rest := []) (by simp)]
  unfold PLine.headPL
  rw [hat, hat']

/-! ## Examples, and what is lost -/

/-- The surface of the examples is loaded as a mesh with the same properties. -/
def sample' : Mesh Tri Int := { TSurf.sample with attrs := [⟨cs!"my prop", true, fun v => 10 + v⟩, ⟨cs!"q", true, fun v => 3 * v⟩] }

example : ∃ l, loadTS (saveTS TSurf.sample) = .ok l ∧ Holds sample' l ∧ (sample'.attrs = [] ↔ TSurf.sample.attrs = []) :=
  ⟨_, TSurf.load_save TSurf.good_sample (by decide), ⟨rfl, rfl, rfl, .cons ⟨rfl, by decide⟩ (.cons ⟨rfl, by decide⟩ .nil)⟩, by decide⟩

example : ∃ l, loadTS (saveTS TSurf.sample) = .ok l ∧ HoldsAny { sample' with attrs := sample'.attrs.reverse } l :=
  ⟨_, TSurf.load_save TSurf.good_sample (by decide), ⟨rfl, rfl, rfl, sample'.attrs, by unfold written; exact (List.reverse_perm _).symm,
    .cons ⟨rfl, by decide⟩ (.cons ⟨rfl, by decide⟩ .nil)⟩⟩

/-- The lines of `PLine.tree` without their property. -/
example : EdgesOk { PLine.tree with attrs := [] } ∧ PLine.LoopFree { PLine.tree with attrs := [] }.cells ∧
    2 * { PLine.tree with attrs := [] }.cells.length < W ∧ writtenPL { PLine.tree with attrs := [] }.attrs = [] :=
  ⟨by unfold EdgesOk; decide, PLine.loopFree_tree, by decide, rfl⟩

/-- A curve with a property that is saved and loaded gives a curve without property, and another file. -/
theorem pl_properties_lost : ∃ f, savePL PLine.tree = .ok f ∧ (loadPL f : Res (Loaded Edge Int)) = .ok
      { name := some cs!"edged_curve_name", points := [⟨0, 0, 0⟩, ⟨1, 0, 0⟩, ⟨1, 0, 0⟩, ⟨2, 0, 0⟩, ⟨1, 0, 0⟩, ⟨3, 0, 0⟩, ⟨4, 0, 0⟩],
        cells := [(0, 1), (2, 3), (4, 5), (5, 6)] } ∧
    savePL ({ points := [⟨0, 0, 0⟩, ⟨1, 0, 0⟩, ⟨1, 0, 0⟩, ⟨2, 0, 0⟩, ⟨1, 0, 0⟩, ⟨3, 0, 0⟩, ⟨4, 0, 0⟩],
              cells := [(0, 1), (2, 3), (4, 5), (5, 6)] } : Mesh Edge Int) ≠ .ok f :=
  ⟨_, rfl, by decide +kernel, by decide +kernel⟩

/-- A closed loop is not written the same way twice. -/
theorem pl_loop_changes : ∃ f, savePL PLine.triangle = .ok f ∧ (loadPL f : Res (Loaded Edge Int)) = .ok
      { name := some cs!"edged_curve_name", points := [⟨1, 0, 0⟩, ⟨0, 1, 0⟩, ⟨0, 0, 0⟩], cells := [(0, 1), (1, 2), (2, 1)] } ∧
    savePL ({ points := [⟨1, 0, 0⟩, ⟨0, 1, 0⟩, ⟨0, 0, 0⟩], cells := [(0, 1), (1, 2), (2, 1)] } : Mesh Edge Int) ≠ .ok f :=
  ⟨_, rfl, by decide +kernel, by decide +kernel⟩

/-- The same properties in another order give another file. -/
theorem order_matters : saveTS { sample' with attrs := sample'.attrs.reverse } ≠ saveTS sample' := by decide +kernel

end Verif.Props.GocadStable
