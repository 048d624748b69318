import Verif.Props.TSurf
import Verif.Props.VSet
import Verif.Props.GocadText
import Verif.Props.GocadHeaders
import Verif.Props.SurfaceOutcomes
import Verif.Props.PointSetOutcomes

/-!
# C206: surfaces and point sets that are loaded come back from the files they are saved in
-/

set_option linter.unusedSectionVars false

namespace Verif.Props.MeshResaved

open Verif Verif.Gocad Verif.GocadMesh

variable {D : Type} [Num D]

/-! ## Names -/

/-- Blanks collapsed and quotes removed. -/
def collapsed (n : Str) : Str := dropQuotes (join (split n))

theorem header_no_quote {f : File} {name : Option Str} {rest : File} (h : readHeader f = .ok (name, rest)) : ∀ n, name = some n → '"' ∉ n := by
  rintro n rfl
  obtain ⟨-, body, -, -, -, -, -, hn⟩ := GocadHeaders.header_read.1 h
  obtain ⟨-, -, -, q, -, -, rfl, -⟩ := hn
  exact (GocadText.object_name_collapsed q).1

theorem or_no_quote {a b : Option Str} (ha : ∀ n, a = some n → '"' ∉ n) (hb : ∀ n, b = some n → '"' ∉ n) : ∀ n, (a <|> b) = some n → '"' ∉ n := by
  cases a with
  | none => simpa using hb
  | some x => simpa using ha

theorem collapsed_eq {n : Str} (h : '"' ∉ n) : collapsed n = join (split n) :=
  dropQuotes_of_not_mem fun hc => h (GocadText.object_name_collapsed.mem_of_mem_join_split hc)

theorem collapsed_good {n : Str} (h : '"' ∉ n) : GoodObjectName (collapsed n) := by
  have h1 := (GocadText.object_name_collapsed n).1
  refine ⟨?_, h1⟩
  rw [collapsed_eq h]
  exact join_split_join fun t ht => isTok_of_mem_split ht

/-! ## Surfaces -/

/-- The name of a loaded surface has no quotes, and its triangles have vertices of the surface. -/
theorem surface_sane {f : File} {l : Loaded Tri D} (h : loadTS f = .ok l) : (∀ n, l.name = some n → '"' ∉ n) ∧
    ∀ t ∈ l.cells, t.1 < l.points.length ∧ t.2.1 < l.points.length ∧ t.2.2 < l.points.length := by
  obtain ⟨os, h1, h2, h3, h4, h5⟩ := (SurfaceOutcomes.surface_loads_iff f l.name l.points l.cells).1 ⟨l.store, h⟩
  rw [h3, h4, h5]
  constructor
  · clear h2 h3 h4 h5 h
    have : ∀ n0 : Option Str, (∀ n, n0 = some n → '"' ∉ n) → ∀ n, SurfaceOutcomes.lastName n0 os = some n → '"' ∉ n := by
      induction h1 with
      | none _ => intro n0 h0 n hn; exact h0 n hn
      | cons _ hh _ _ _ _ _ _ ih => intro n0 h0 n hn; exact ih _ (or_no_quote (header_no_quote hh) h0) n hn
    exact this none (by simp)
  · have : ∀ k, SurfaceOutcomes.Fits k os → ∀ t ∈ SurfaceOutcomes.placed k os, SurfaceOutcomes.Within (k + (os.flatMap SurfaceOutcomes.Object.points).length) t := by
      clear h1 h2 h3 h4 h5
      induction os with
      | nil => intro k _ t ht; simp [SurfaceOutcomes.placed] at ht
      | cons o os ih =>
        intro k hf t ht
        rw [SurfaceOutcomes.placed] at ht
        rw [List.flatMap_cons, List.length_append]
        rcases List.mem_append.1 ht with ht | ht
        · obtain ⟨t', ht', rfl⟩ := List.mem_map.1 ht
          have := hf.1 t' ht'
          unfold SurfaceOutcomes.Within at this ⊢
          omega
        · have := ih _ hf.2 t ht
          unfold SurfaceOutcomes.Within at this ⊢
          omega
    intro t ht
    have := this 0 h2 t ht
    simpa [SurfaceOutcomes.Within] using this

/-- The mesh of what was loaded, with any attributes. -/
def again {S : Type} (l : Loaded S D) (attrs : List (Attr D)) : Mesh S D := { name := l.name, points := l.points, cells := l.cells, attrs }

/-- The same mesh with a collapsed name. -/
def tidy {S : Type} (m : Mesh S D) : Mesh S D := { m with name := m.name.map collapsed }

theorem header_tidy {name : Option Str} (h : ∀ n, name = some n → '"' ∉ n) (rest : File) :
    readHeader (writeHeader name ++ rest) = readHeader (writeHeader (name.map collapsed) ++ rest) := by
  cases name with
  | none => rfl
  | some n =>
    have h1 := (GocadText.object_name n rest).1
    have g := collapsed_good (h n rfl)
    have h2 := (GocadText.object_name (collapsed n) rest).2 g.1 g.2
    rw [h1, Option.map_some, h2]
    rfl

theorem ts_tidy {m : Mesh Tri D} (h : ∀ n, m.name = some n → '"' ∉ n) : (loadTS (saveTS m) : Res (Loaded Tri D)) = loadTS (saveTS (tidy m)) := by
  have hl : (saveTS m).length = (saveTS (tidy m)).length := by
    unfold saveTS tidy
    cases m.name <;> simp [writeHeader]
  unfold loadTS
  rw [hl, loadTSLoop, loadTSLoop]
  have : (readTSurf (saveTS m) : Res (Option (TSurf D × File))) = readTSurf (saveTS (tidy m)) := by
    unfold saveTS readTSurf
    simp only [List.append_assoc, List.cons_append, List.nil_append]
    rw [gotoKeyword?, if_pos (by rfl), gotoKeyword?, if_pos (by rfl)]
    simp only
    rw [header_tidy h]
    rfl
  rw [this]

/-- **C206, surfaces, partial** (the full statement is `Back`, below, for every loaded surface; it is refuted): whatever file a surface was loaded from, it can be saved and loaded, with its points, as they are written, and its triangles; its name
comes back with its blanks collapsed. -/
theorem surface_back_partial [LawfulNum D] {f : File} {l : Loaded Tri D} (h : loadTS f = .ok l) (hW : l.points.length < W) {attrs : List (Attr D)}
    (hg : GoodNames ((written attrs).map Attr.name)) (hd : ((written attrs).map Attr.name).Nodup) : ∃ st, loadTS (saveTS (again l attrs)) =
      .ok { name := l.name.map collapsed, points := l.points.map Pt.round, cells := l.cells, store := st } := by
  obtain ⟨h1, h2⟩ := surface_sane h
  rw [ts_tidy h1]
  refine ⟨_, TSurf.load_save (m := tidy (again l attrs)) ⟨?_, hg, h2, hW⟩ hd⟩
  intro n hn
  obtain ⟨n0, hn0, rfl⟩ := Option.map_eq_some_iff.1 hn
  exact collapsed_good (h1 n0 hn0)

theorem map_collapsed_iff {name : Option Str} (h : ∀ n, name = some n → '"' ∉ n) : name.map collapsed = name ↔ ∀ n, name = some n → join (split n) = n := by
  cases name with
  | none => simp
  | some n =>
    have := collapsed_eq (h n rfl)
    simp [this]

/-- What C206 asks of a loaded mesh: it is loaded again with its name, its points, as they are written, and its cells. -/
def Back {S : Type} (l : Loaded S D) (r : Res (Loaded S D)) : Prop :=
  ∃ l', r = .ok l' ∧ l'.name = l.name ∧ l'.points = l.points.map Pt.round ∧ l'.cells = l.cells

/-- **C206, exactly which surfaces**: those whose name has its words separated by single blanks. -/
theorem surface_back_iff [LawfulNum D] {f : File} {l : Loaded Tri D} (h : loadTS f = .ok l) (hW : l.points.length < W) {attrs : List (Attr D)}
    (hg : GoodNames ((written attrs).map Attr.name)) (hd : ((written attrs).map Attr.name).Nodup) :
    Back l (loadTS (saveTS (again l attrs))) ↔ ∀ n, l.name = some n → join (split n) = n := by
  obtain ⟨st, e⟩ := surface_back_partial h hW hg hd
  rw [e, ← map_collapsed_iff (surface_sane h).1]
  constructor
  · rintro ⟨l', e', hn, -, -⟩
    injection e' with e'
    subst e'
    exact hn
  · intro hn
    exact ⟨_, rfl, hn, rfl, rfl⟩

/-- A surface whose name is written with a quote between two blanks. -/
def quoted : File := [cs!"GOCAD TSurf 1", cs!"HEADER {", cs!"name: a \" b", cs!"}", cs!"TFACE", cs!"VRTX 1 0 0 0", cs!"VRTX 2 1 0 0", cs!"VRTX 3 0 1 0",
  cs!"TRGL 1 2 3", cs!"END"]

/-- A test of `quoted`: it loads, with two blanks in its name. -/
theorem quoted_loads : (loadTS quoted : Res (Loaded Tri Int)) =
    .ok { name := some cs!"a  b", points := [⟨0, 0, 0⟩, ⟨1, 0, 0⟩, ⟨0, 1, 0⟩], cells := [(0, 1, 2)] } := by decide +kernel

/-- **C206 is violated**: this surface is loaded, and loses a blank of its name when it is saved. -/
theorem surface_name_lost : ∃ (f : File) (l : Loaded Tri Int), loadTS f = .ok l ∧ ¬ Back l (loadTS (saveTS (again l []))) :=
  ⟨quoted, _, quoted_loads, fun hb =>
    absurd ((surface_back_iff quoted_loads (by decide +kernel) (by intro n hn; simp [written] at hn) (by simp [written])).1 hb _ rfl) (by decide +kernel)⟩

/-! ## Point sets -/

theorem set_sane {f : File} {l : Loaded Empty D} (h : loadVS f = .ok l) : ∀ n, l.name = some n → '"' ∉ n := by
  have hc : l.cells = [] := by
    cases hl : l.cells with
    | nil => rfl
    | cons x _ => exact x.elim
  obtain ⟨os, h1, h2, -⟩ := (PointSetOutcomes.points_load_iff f l.name l.points).1 ⟨l.store, by rw [h, ← hc]⟩
  rw [h2]
  clear h2 h hc
  have : ∀ n0 : Option Str, (∀ n, n0 = some n → '"' ∉ n) → ∀ n, PointSetOutcomes.lastName n0 os = some n → '"' ∉ n := by
    induction h1 with
    | none _ => intro n0 h0 n hn; exact h0 n hn
    | cons _ hh _ _ _ _ _ _ ih => intro n0 h0 n hn; exact ih _ (or_no_quote (header_no_quote hh) h0) n hn
  exact this none (by simp)

theorem vs_tidy {m : Mesh Empty D} (h : ∀ n, m.name = some n → '"' ∉ n) : (loadVS (saveVS m) : Res (Loaded Empty D)) = loadVS (saveVS (tidy m)) := by
  have hl : (saveVS m).length = (saveVS (tidy m)).length := by
    unfold saveVS tidy
    cases m.name <;> simp [writeHeader]
  unfold loadVS
  rw [hl, loadVSLoop, loadVSLoop]
  have : (readVSet (saveVS m) : Res (Option (VSet D × File))) = readVSet (saveVS (tidy m)) := by
    unfold saveVS readVSet
    simp only [List.append_assoc, List.cons_append, List.nil_append]
    rw [gotoKeyword?, if_pos (by rfl), gotoKeyword?, if_pos (by rfl)]
    simp only
    rw [header_tidy h]
    rfl
  rw [this]

/-- **C206, exactly which point sets**: those with a point, whose name has its words separated by single blanks. -/
theorem set_back_iff [LawfulNum D] {f : File} {l : Loaded Empty D} (h : loadVS f = .ok l) (hW : l.points.length < W) {attrs : List (Attr D)}
    (hg : GoodNames ((written attrs).map Attr.name)) (hd : ((written attrs).map Attr.name).Nodup) :
    Back l (loadVS (saveVS (again l attrs))) ↔ l.points ≠ [] ∧ ∀ n, l.name = some n → join (split n) = n := by
  have h1 := set_sane h
  have g : GoodVSet (tidy (again l attrs)) := ⟨by
    intro n hn
    obtain ⟨n0, hn0, rfl⟩ := Option.map_eq_some_iff.1 hn
    exact collapsed_good (h1 n0 hn0), hg, hW⟩
  have hc : l.cells = [] := by
    cases hl : l.cells with
    | nil => rfl
    | cons x _ => exact x.elim
  rw [vs_tidy h1, ← map_collapsed_iff h1]
  by_cases hp : l.points = []
  · rw [VSet.empty_throws g hp]
    constructor
    · rintro ⟨l', e', -⟩
      cases e'
    · intro hx
      exact absurd hp hx.1
  · rw [VSet.load_save g hp hd]
    constructor
    · rintro ⟨l', e', hn, -, -⟩
      injection e' with e'
      subst e'
      exact ⟨hp, hn⟩
    · intro hx
      exact ⟨_, rfl, hx.2, rfl, hc.symm⟩

/-- **C206 is violated**: a file without objects is loaded as the empty point set, and the file this is saved in is refused. -/
theorem empty_set_lost : ∃ (f : File) (l : Loaded Empty Int), loadVS f = .ok l ∧ ¬ Back l (loadVS (saveVS (again l []))) := by
  have e : (loadVS [] : Res (Loaded Empty Int)) = .ok {} := by decide +kernel
  exact ⟨[], _, e, fun hb =>
    ((set_back_iff e (by decide +kernel) (by intro n hn; simp [written] at hn) (by simp [written])).1 hb).1 rfl⟩

/-- Not vacuous: the points of `PointSetOutcomes.twice`, two objects, come back (test on a literal). -/
example : ∃ l : Loaded Empty Int, loadVS PointSetOutcomes.twice = .ok l ∧ Back l (loadVS (saveVS (again l []))) := by
  have hl : (loadVS PointSetOutcomes.twice : Res (Loaded Empty Int)) = .ok ⟨some cs!"a", [⟨0, 0, 0⟩, ⟨1, 0, 0⟩, ⟨7, 7, 7⟩], [],
      [(cs!"p", ⟨1, -9, [[3], [-9], [-9]]⟩)]⟩ := by decide +kernel
  refine ⟨_, hl, (set_back_iff hl (by decide +kernel) (by intro n hn; simp [written] at hn) (by simp [written])).2 ⟨by decide, ?_⟩⟩
  rintro n ⟨⟩
  decide +kernel

/-- Not vacuous: a surface with a name of two words comes back (test on a literal). -/
example : ∃ (f : File) (l : Loaded Tri Int), loadTS f = .ok l ∧ l.name = some cs!"a b" ∧ l.cells = [(0, 1, 2)] ∧ Back l (loadTS (saveTS (again l []))) := by
  have hl : (loadTS (quoted.set 2 cs!"name: a   b") : Res (Loaded Tri Int)) =
    .ok { name := some cs!"a b", points := [⟨0, 0, 0⟩, ⟨1, 0, 0⟩, ⟨0, 1, 0⟩], cells := [(0, 1, 2)] } := by decide +kernel
  refine ⟨_, _, hl, rfl, rfl, (surface_back_iff hl (by decide +kernel) (by intro n hn; simp [written] at hn) (by simp [written])).2 ?_⟩
  rintro n ⟨⟩
  decide +kernel

end Verif.Props.MeshResaved
