import Verif.Props.GocadStable
import Verif.Props.CurveOutcomes
import Verif.Props.DevRefused
import Verif.Props.WlOutcomes

/-!
# C204 and C205: loaded curves and wells saved as curves (`.pl`)
-/

set_option linter.unusedSectionVars false

namespace Verif.Props.WellsSaved

open Verif Verif.Gocad Verif.GocadMesh Verif.GocadWalk Verif.Wells Verif.Props.PLine

variable {D : Type} [Num D]

/-! ## C204: they can be saved -/

/-- A well is loaded from one of the three formats. -/
def LoadedWell [Add D] (w : Well D) : Prop := ∃ f, loadList f = .ok w ∨ loadDev f = .ok w ∨ loadWl f = .ok w

/-- The curve of a well, with any attributes. -/
def curve (w : Well D) (attrs : List (Attr D)) : Mesh Edge D := { name := w.name, points := w.points, cells := w.edges, attrs }

theorem mapM'_each {α β : Type} {f : α → Res β} {l : List α} {r : List β} (h : Res.mapM' f l = .ok r) : ∀ a ∈ l, ∃ b, f a = .ok b := by
  induction l generalizing r with
  | nil => simp
  | cons x l ih =>
    rw [Res.mapM'_cons] at h
    obtain ⟨b, h1, h⟩ := Res.bind_eq_ok.1 h
    obtain ⟨bs, h2, -⟩ := Res.bind_eq_ok.1 h
    intro a ha
    rcases List.mem_cons.1 ha with rfl | ha
    · exact ⟨b, h1⟩
    · exact ih h2 a ha

theorem chain_edges {n : Nat} {es : List Edge} (h : chainEdges n = .ok es) : es = (List.range (sub32 n 1)).map (fun i => (i, i + 1)) ∧ ∀ e ∈ es, e.1 < n ∧ e.2 < n := by
  unfold chainEdges at h
  have hall : ∀ i ∈ List.range (sub32 n 1), i + 1 < n := by
    intro i hi
    apply Classical.byContradiction
    intro hn
    obtain ⟨b, hb⟩ := mapM'_each h i hi
    rw [if_neg hn] at hb
    cases hb
  rw [Res.mapM'_ok (g := fun i => (i, i + 1)) (fun i hi => if_pos (hall i hi))] at h
  have := Res.ok.inj h
  subst this
  refine ⟨rfl, fun e he => ?_⟩
  obtain ⟨i, hi, rfl⟩ := List.mem_map.1 he
  have := hall i hi
  dsimp only
  omega

theorem chain_run {n : Nat} {es : List Edge} (h : chainEdges n = .ok es) (hW : n ≤ W) : es = runSegs 0 (n - 1) := by
  rcases Nat.eq_zero_or_pos n with rfl | hn
  · rw [Props.Wells.chainEdges_zero] at h
    cases h
  · rw [Props.Wells.chainEdges_pos hn hW] at h
    rw [← Res.ok.inj h]
    simp [Props.Wells.polyline, runSegs]

/-- The edges of a loaded well join its points, each one to the next. -/
theorem well_edges [Add D] {w : Well D} (h : LoadedWell w) : (w.points.length ≤ W → w.edges = runSegs 0 (w.points.length - 1)) ∧ ∀ e ∈ w.edges, e.1 < w.points.length ∧ e.2 < w.points.length := by
  obtain ⟨f, h | h | h⟩ := h
  · unfold loadList at h
    obtain ⟨ps, -, h⟩ := Res.bind_eq_ok.1 h
    obtain ⟨es, h2, h⟩ := Res.bind_eq_ok.1 h
    have := Res.ok.inj h
    subst this
    obtain ⟨h3, h4⟩ := chain_edges h2
    exact ⟨chain_run h2, h4⟩
  · rw [DevRefused.load_eq] at h
    obtain ⟨r, -, h⟩ := Res.bind_eq_ok.1 h
    obtain ⟨rows, -, h⟩ := Res.bind_eq_ok.1 h
    obtain ⟨es, h2, h⟩ := Res.bind_eq_ok.1 h
    have := Res.ok.inj h
    subst this
    obtain ⟨h3, h4⟩ := chain_edges h2
    exact ⟨by simpa using chain_run h2, by simpa using h4⟩
  · unfold loadWl at h
    split at h
    · cases h
    · obtain ⟨_, -, h⟩ := Res.bind_eq_ok.1 h
      obtain ⟨_, -, h⟩ := Res.bind_eq_ok.1 h
      obtain ⟨_, -, h⟩ := Res.bind_eq_ok.1 h
      obtain ⟨_, -, h⟩ := Res.bind_eq_ok.1 h
      obtain ⟨_, -, h⟩ := Res.bind_eq_ok.1 h
      obtain ⟨ps, -, h⟩ := Res.bind_eq_ok.1 h
      have := Res.ok.inj h
      subst this
      refine ⟨fun _ => by simp [runSegs], fun e he => ?_⟩
      obtain ⟨i, hi, rfl⟩ := List.mem_map.1 he
      have := List.mem_range.1 hi
      dsimp only
      omega

/-- **C204, wells**: every well that is loaded can be saved as a curve, with a segment for each of its edges. -/
theorem well_saved [Add D] {w : Well D} (h : LoadedWell w) (attrs : List (Attr D)) : ∃ f, savePL (curve w attrs) = .ok f ∧ nbSegs f = w.edges.length :=
  save_one_seg_per_edge (m := curve w attrs) (well_edges h).2

theorem placed_lt {k : Nat} {os : List (CurveOutcomes.Object D)} (h : CurveOutcomes.Fits k os) :
    ∀ e ∈ CurveOutcomes.placed k os, e.1 < k + (os.flatMap CurveOutcomes.Object.points).length ∧ e.2 < k + (os.flatMap CurveOutcomes.Object.points).length := by
  induction os generalizing k with
  | nil => intro e he; simp [CurveOutcomes.placed] at he
  | cons o os ih =>
    intro e he
    rw [CurveOutcomes.placed] at he
    rw [List.flatMap_cons, List.length_append]
    rcases List.mem_append.1 he with he | he
    · obtain ⟨e', he', rfl⟩ := List.mem_map.1 he
      have := h.1 e' he'
      omega
    · have := ih h.2 e he
      omega

/-- **C204, curves**: every curve that is loaded can be saved, with a segment for each of its edges. -/
theorem curve_saved {f : File} {l : Loaded Edge D} (h : loadPL f = .ok l) (attrs : List (Attr D)) :
    ∃ g, savePL { name := l.name, points := l.points, cells := l.cells, attrs } = .ok g ∧ nbSegs g = l.cells.length := by
  obtain ⟨os, -, h2, rfl⟩ := (CurveOutcomes.curve_loads_iff _ _).1 h
  refine save_one_seg_per_edge (m := { name := _, points := _, cells := _, attrs }) ?_
  have := placed_lt h2
  intro e he
  simpa [CurveOutcomes.curveOf] using this e he

/-! ## C205: wells come back -/

/-- The only polyline of the curve of a well. -/
def line (k : Nat) : Ln := ⟨(List.range k).map fun i => (i, false), false⟩

theorem vtx_run {k i : Nat} (h : i < k) (b : Bool) : vtx (runSegs 0 k) (i, b) = if b then i + 1 else i := by
  unfold vtx runSegs
  simp [h]

theorem line_verts {k : Nat} (hk : 0 < k) : (line k).verts (runSegs 0 k) = List.range (k + 1) := by
  unfold Ln.verts line
  obtain ⟨n, rfl⟩ : ∃ n, k = n + 1 := ⟨k - 1, by omega⟩
  rw [List.map_map]
  have h1 : (List.range (n + 1)).map (vtx (runSegs 0 (n + 1)) ∘ fun i => (i, false)) = List.range (n + 1) := by
    conv => rhs; rw [← List.map_id (List.range (n + 1))]
    apply List.map_congr_left
    intro i hi
    have := vtx_run (List.mem_range.1 hi) false
    simpa using this
  have h2 : ((List.range (n + 1)).map fun i => ((i, false) : EV)).getLast? = some (n, false) := by
    simp [List.range_succ]
  rw [h1]
  simp only [h2]
  have := vtx_run (k := n + 1) (i := n) (by omega) true
  simp only [Option.map_some, opp, Bool.not_false, this]
  simp [List.range_succ]

/-- **C205, the curve of a polyline comes back**, point by point and edge by edge. -/
theorem run_round_trip [LawfulNum D] {m : Mesh Edge D} {k : Nat} (hk : 0 < k) (hm : m.cells = runSegs 0 k) (hp : m.points.length = k + 1) (hW : k + 1 < W) :
    ∃ f, savePL m = .ok f ∧ loadPL f = .ok { name := some cs!"edged_curve_name", points := m.points.map Pt.round, cells := m.cells } := by
  have h1 := GocadStable.save_runs (m := m) [k] (by simpa using hk) (by simpa [GocadStable.runEdges] using hm) (by simpa [GocadStable.total] using hp)
  have h2 : GocadStable.runsText (vrtxKeyword m.attrs) (writtenPL m.attrs) m.points 1 0 [k] = lnsText m (vrtxKeyword m.attrs) (writtenPL m.attrs) 1 [line k] := by
    have hv := line_verts hk
    rw [← hm] at hv
    unfold lnsText lnText
    rw [hv]
    simp [GocadStable.runsText, GocadStable.runText, GocadStable.run, lnsText, line]
  rw [h2] at h1
  refine ⟨_, h1, ?_⟩
  have hv := line_verts hk
  rw [← hm] at hv
  have hs : lnsSegs m.cells 0 [line k] = m.cells := by
    unfold lnsSegs lnSegs
    rw [hv]
    simp [lnsSegs, line, hm]
  have hpt : ([line k].flatMap (Ln.verts m.cells)).map (fun v => Pt.round (ptAt m v)) = m.points.map Pt.round := by
    rw [List.flatMap_cons, List.flatMap_nil, List.append_nil, hv, ← hp]
    apply List.ext_getElem?
    intro i
    rw [List.getElem?_map]
    by_cases hi : i < m.points.length
    · rw [List.getElem?_range hi, pt_get hi]
      rfl
    · rw [List.getElem?_eq_none (by simpa using hi), List.getElem?_eq_none (by simpa using hi)]
      rfl
  have hlt : ∀ e ∈ m.cells, e.1 < m.points.length ∧ e.2 < m.points.length := by
    rw [hm, hp]
    intro e he
    obtain ⟨i, hi, rfl⟩ := List.mem_map.1 he
    have := List.mem_range.1 hi
    dsimp only
    omega
  rw [load_lines m (by simp) (by simp [line]; omega) (by rw [hs]; intro e he; have := hlt e he; rw [hm] at he; obtain ⟨i, hi, rfl⟩ := List.mem_map.1 he; have := List.mem_range.1 hi; dsimp only; omega), hs, hpt]
  exact build_ok _ _ _ (by simpa using hlt) (fun e he => by have := hlt e he; omega)

/-- **C205, exactly**: a well that is loaded and saved as a curve comes back with its points, as they are written, in the same order and joined in the same way,
when it has two points or more, and only then. -/
theorem well_round_trip_iff [Add D] [LawfulNum D] {w : Well D} (h : LoadedWell w) (hW : w.points.length < W) (attrs : List (Attr D)) :
    (∃ f, savePL (curve w attrs) = .ok f ∧
      loadPL f = .ok { name := some cs!"edged_curve_name", points := w.points.map Pt.round, cells := w.edges }) ↔ 2 ≤ w.points.length := by
  have he := (well_edges h).1 (by omega)
  constructor
  · rintro ⟨f, h1, h2⟩
    apply Classical.byContradiction
    intro hn
    obtain ⟨f', h3, h4⟩ := no_edge_not_reloaded (curve w attrs) (by
      show w.edges = []
      rw [he, show w.points.length - 1 = 0 by omega]
      rfl)
    rw [← Res.ok.inj (h1.symm.trans h3), h2] at h4
    cases h4
  · intro hn
    exact run_round_trip (m := curve w attrs) (k := w.points.length - 1) (by omega) he (by show w.points.length = _; omega) (by omega)

/-- **C205, partial.**  Missing: wells of one point (`well_round_trip_fails`). -/
theorem well_round_trip_partial [Add D] [LawfulNum D] {w : Well D} (h : LoadedWell w) (hW : w.points.length < W) (hn : 2 ≤ w.points.length) (attrs : List (Attr D)) :
    ∃ f, savePL (curve w attrs) = .ok f ∧ loadPL f = .ok { name := some cs!"edged_curve_name", points := w.points.map Pt.round, cells := w.edges } :=
  (well_round_trip_iff h hW attrs).2 hn

/-- A list of one point. -/
def one : Well Int := { points := [⟨1, 2, 3⟩] }

theorem one_loaded : LoadedWell one := ⟨[cs!"1 2 3"], .inl (by decide +kernel)⟩

/-- **C205 fails**: a well of one point is loaded and saved, but the file of its curve is refused. -/
theorem well_round_trip_fails : ∃ w : Well Int, LoadedWell w ∧ ∃ f, savePL (curve w []) = .ok f ∧ (loadPL f : Res (Loaded Edge Int)) = .throw :=
  ⟨one, one_loaded, no_edge_not_reloaded (curve one []) rfl⟩

/-- A list of three points, for the premises of `well_saved` and `well_round_trip_partial`. -/
def three : Well Int := { points := [⟨1, 2, 3⟩, ⟨4, 5, 6⟩, ⟨7, 8, 10⟩], edges := [(0, 1), (1, 2)] }

example : LoadedWell three ∧ three.points.length < W ∧ 2 ≤ three.points.length :=
  ⟨⟨[cs!"1 2 3", cs!"4 5 6", cs!"7 8 10"], .inl (by decide +kernel)⟩, by decide, by decide⟩

/-- A curve that loads, for the premise of `curve_saved`. -/
example : ∃ l : Loaded Edge Int, loadPL [cs!"GOCAD PLine 1", cs!"HEADER {", cs!"}", cs!"ILINE", cs!"VRTX 1 0 0 0", cs!"VRTX 2 1 0 0", cs!"SEG 1 2", cs!"END"] = .ok l ∧
    l.cells = [(0, 1)] := ⟨{ points := [⟨0, 0, 0⟩, ⟨1, 0, 0⟩], cells := [(0, 1)] }, by decide +kernel, rfl⟩

end Verif.Props.WellsSaved
