import Verif.Props.GrdeclCells
import Verif.Props.GocadTruncated
import Mathlib.Data.List.Forall2

/-!
# C25, C26 and C27: text of a corner point grid
-/

set_option linter.unusedSectionVars false

namespace Verif.Props.GrdeclText

open Verif Verif.Grdecl Verif.Radix Verif.Props.GrdeclCells Verif.Props.GocadTruncated

variable {D : Type} [Num D]

/-! ## Specification of the text -/

/-- The three tokens are the coordinates of the point. -/
def IsPt (ts : List Str) (p : Pt D) : Prop :=
  ∃ a b c r, ts = a :: b :: c :: r ∧ Num.parse a = some p.x ∧ Num.parse b = some p.y ∧ Num.parse c = some p.z

/-- A line of a section: neither its end nor an inclusion. -/
def Inside (l : Str) : Prop := startsWith l cs!"/" = false ∧ startsWith l cs!"INCLUDE" = false

/-- The lines describe the pillars, each on one line of six numbers or on two lines of three numbers, with any blank lines between
pillars. -/
inductive PillarLines : List (Pillar D) → List Str → Prop
  | nil : PillarLines [] []
  | blank {ps ls l} : Inside l → split l = [] → PillarLines ps ls → PillarLines ps (l :: ls)
  | one {ps ls l p a b c d e f} : Inside l → split l = [a, b, c, d, e, f] → IsPt [a, b, c] p.top → IsPt [d, e, f] p.bottom →
      PillarLines ps ls → PillarLines (p :: ps) (l :: ls)
  | two {ps ls l l' p a b c} : Inside l → Inside l' → split l = [a, b, c] → IsPt [a, b, c] p.top → IsPt (split l') p.bottom →
      PillarLines ps ls → PillarLines (p :: ps) (l :: l' :: ls)

/-- The lines hold the depths, any number of them on each line. -/
def DepthLines (ds : List D) (ls : List Str) : Prop :=
  (∀ l ∈ ls, Inside l) ∧ List.Forall₂ (fun t d => Num.parse t = some d) (ls.flatMap split) ds

/-- A line that ends a section. -/
def IsEnd (l : Str) : Prop := startsWith l cs!"/" = true

/-! ## Loops -/

theorem readPt_ok {ts pre : List Str} {p : Pt D} (h : IsPt ts p) : readPt (pre ++ ts) pre.length = .ok p := by
  obtain ⟨a, b, c, r, rfl, h1, h2, h3⟩ := h
  unfold readPt
  have e0 : Res.index (pre ++ a :: b :: c :: r) pre.length = .ok a := by rw [Res.index_eq_ok]; simp
  have e1 : Res.index (pre ++ a :: b :: c :: r) (pre.length + 1) = .ok b := by rw [Res.index_eq_ok]; simp
  have e2 : Res.index (pre ++ a :: b :: c :: r) (pre.length + 2) = .ok c := by rw [Res.index_eq_ok]; simp
  simp [e0, e1, e2, readDouble, h1, h2, h3]

theorem readPt_zero {ts : List Str} {p : Pt D} (h : IsPt ts p) : readPt ts 0 = .ok p := readPt_ok (pre := []) h

theorem IsPt.append {ts r : List Str} {p : Pt D} (h : IsPt ts p) : IsPt (ts ++ r) p := by
  obtain ⟨a, b, c, r', rfl, h1, h2, h3⟩ := h
  exact ⟨a, b, c, r' ++ r, rfl, h1, h2, h3⟩

/-- Reading well formed pillar lines: all pillars are stored, unless there are too many of them. -/
theorem pillarsLoop_lines (size : Nat) {ps : List (Pillar D)} {ls : List Str} (h : PillarLines ps ls) (acc : List (Pillar D))
    (hacc : acc.length ≤ size) (rest : File) :
    pillarsLoop size acc none (ls ++ rest) = if acc.length + ps.length ≤ size then pillarsLoop size (acc ++ ps) none rest else .ub := by
  induction h generalizing acc with
  | nil => simp [hacc]
  | @blank ps ls l hi hs _ ih =>
    rw [List.cons_append, pillarsLoop, if_neg (by rw [hi.1]; simp)]
    simp only [hs, List.isEmpty_nil, if_true]
    exact ih acc hacc
  | @one ps ls l p a b c d e f hi hs ht hb _ ih =>
    rw [List.cons_append, pillarsLoop, if_neg (by rw [hi.1]; simp)]
    simp only [hs, List.isEmpty_cons, Bool.false_eq_true, if_false, List.length_cons, List.length_nil, Nat.reduceAdd, if_true]
    have h0 : readPt [a, b, c, d, e, f] 0 = .ok p.top := readPt_zero (IsPt.append (r := [d, e, f]) ht)
    have h3 : readPt [a, b, c, d, e, f] 3 = .ok p.bottom := readPt_ok (pre := [a, b, c]) hb
    rw [h0, Res.ok_bind, h3, Res.ok_bind]
    by_cases hlt : acc.length < size
    · rw [if_pos hlt]
      refine (ih (acc ++ [p]) (by simp; omega)).trans ?_
      simp only [List.length_append, List.length_cons, List.length_nil, List.append_assoc, List.cons_append, List.nil_append]
      have e : acc.length + (0 + 1) + ps.length = acc.length + (ps.length + 1) := by omega
      rw [e]
    · rw [if_neg hlt, if_neg (by omega)]
  | @two ps ls l l' p a b c hi hi' hs ht hb _ ih =>
    rw [List.cons_append, List.cons_append, pillarsLoop, if_neg (by rw [hi.1]; simp)]
    simp only [hs, List.isEmpty_cons, Bool.false_eq_true, if_false, List.length_cons, List.length_nil, Nat.reduceAdd, if_true,
      Nat.reduceEqDiff]
    rw [readPt_zero ht, Res.ok_bind, pillarsLoop, readPt_zero hb, Res.ok_bind]
    by_cases hlt : acc.length < size
    · rw [if_pos hlt]
      refine (ih (acc ++ [p]) (by simp; omega)).trans ?_
      simp only [List.length_append, List.length_cons, List.length_nil, List.append_assoc, List.cons_append, List.nil_append]
      have e : acc.length + (0 + 1) + ps.length = acc.length + (ps.length + 1) := by omega
      rw [e]
    · rw [if_neg hlt, if_neg (by omega)]

theorem depthTokens_ok (size : Nat) {ts : List Str} {ds : List D} (h : List.Forall₂ (fun t d => Num.parse t = some d) ts ds)
    (acc : List D) (hacc : acc.length ≤ size) :
    depthTokens size acc ts = if acc.length + ds.length ≤ size then .ok (acc ++ ds) else .ub := by
  induction h generalizing acc with
  | nil => simp [depthTokens, hacc]
  | @cons t d ts ds h1 _ ih =>
    rw [depthTokens, readDouble, h1, Res.ofParse_some, Res.ok_bind]
    by_cases hlt : acc.length < size
    · rw [if_pos hlt, ih (acc ++ [d]) (by simp; omega)]
      simp only [List.length_append, List.length_cons, List.length_nil, List.append_assoc, List.cons_append, List.nil_append]
      have e : acc.length + (0 + 1) + ds.length = acc.length + (ds.length + 1) := by omega
      rw [e]
    · rw [if_neg hlt, if_neg (by simp only [List.length_cons]; omega)]

theorem forall₂_append_left {α β : Type} {R : α → β → Prop} {a b : List α} {c : List β} (h : List.Forall₂ R (a ++ b) c) :
    ∃ c1 c2, List.Forall₂ R a c1 ∧ List.Forall₂ R b c2 ∧ c = c1 ++ c2 := by
  induction a generalizing c with
  | nil => exact ⟨[], c, .nil, h, rfl⟩
  | cons x xs ih =>
    rw [List.cons_append] at h
    cases h with
    | @cons _ y _ ys h1 h2 =>
      obtain ⟨c1, c2, h3, h4, rfl⟩ := ih h2
      exact ⟨y :: c1, c2, .cons h1 h3, h4, rfl⟩

theorem depthsLoop_lines (size : Nat) {ls : List Str} {ds : List D} (h : DepthLines ds ls) (acc : List D) (hacc : acc.length ≤ size)
    (rest : File) :
    depthsLoop size acc (ls ++ rest) = if acc.length + ds.length ≤ size then depthsLoop size (acc ++ ds) rest else .ub := by
  induction ls generalizing acc ds with
  | nil =>
    obtain ⟨_, h2⟩ := h
    simp only [List.flatMap_nil] at h2
    cases h2
    simp [hacc]
  | cons l ls ih =>
    obtain ⟨h1, h2⟩ := h
    rw [List.flatMap_cons] at h2
    obtain ⟨ds1, ds2, hd1, hd2, rfl⟩ : ∃ ds1 ds2, List.Forall₂ (fun t d => Num.parse t = some d) (split l) ds1 ∧
        List.Forall₂ (fun t d => Num.parse t = some d) (ls.flatMap split) ds2 ∧ ds = ds1 ++ ds2 :=
      forall₂_append_left h2
    rw [List.cons_append, depthsLoop, if_neg (by rw [(h1 l (by simp)).1]; simp), depthTokens_ok size hd1 acc hacc]
    by_cases hle : acc.length + ds1.length ≤ size
    · rw [if_pos hle, Res.ok_bind, ih ⟨fun x hx => h1 x (by simp [hx]), hd2⟩ (acc ++ ds1) (by simpa using hle)]
      simp only [List.length_append, List.append_assoc]
      rw [Nat.add_assoc]
    · rw [if_neg hle, if_neg (by simp only [List.length_append]; omega)]
      rfl

/-! ## Whole files -/

theorem includesLoop_skip {ls : List Str} (h : ∀ l ∈ ls, startsWith l cs!"INCLUDE" = false) (rest : File) :
    includesLoop false (ls ++ rest) = includesLoop false rest := by
  induction ls with
  | nil => rfl
  | cons l ls ih =>
    rw [List.cons_append, includesLoop, h l (by simp)]
    exact ih fun x hx => h x (by simp [hx])

theorem PillarLines.inside {ps : List (Pillar D)} {ls : List Str} (h : PillarLines ps ls) : ∀ l ∈ ls, Inside l := by
  induction h with
  | nil => simp
  | blank hi _ _ ih => intro x hx; rcases List.mem_cons.1 hx with rfl | hx; exacts [hi, ih x hx]
  | one hi _ _ _ _ ih => intro x hx; rcases List.mem_cons.1 hx with rfl | hx; exacts [hi, ih x hx]
  | two hi hi' _ _ _ _ ih =>
    intro x hx
    rcases List.mem_cons.1 hx with rfl | hx
    · exact hi
    · rcases List.mem_cons.1 hx with rfl | hx
      exacts [hi', ih x hx]

theorem readDimsLoop_append {f after : File} {d : Nat × Nat × Nat} (h : readDimsLoop f = .ok (d, after)) (r : File) :
    readDimsLoop (f ++ r) = .ok (d, after ++ r) := by
  induction f with
  | nil => simp [readDimsLoop] at h
  | cons l ls ih =>
    rw [List.cons_append, readDimsLoop]
    rw [readDimsLoop] at h
    split
    · rename_i hl
      rw [if_pos hl] at h
      simp only [Res.bind_eq_ok] at h ⊢
      obtain ⟨a, ha, a', ha', b, hb, b', hb', c, hc, c', hc', e⟩ := h
      refine ⟨a, ha, a', ha', b, hb, b', hb', c, hc, c', hc', ?_⟩
      simp only [Res.pure_eq, Res.ok.injEq, Prod.mk.injEq] at e ⊢
      exact ⟨e.1, by rw [e.2]⟩
    · rename_i hl
      rw [if_neg hl] at h
      exact ih h

theorem readDimsLoop_suffix {f after : File} {d : Nat × Nat × Nat} (h : readDimsLoop f = .ok (d, after)) : ∃ u, f = u ++ after := by
  induction f with
  | nil => simp [readDimsLoop] at h
  | cons l ls ih =>
    rw [readDimsLoop] at h
    split at h
    · simp only [Res.bind_eq_ok] at h
      obtain ⟨a, ha, a', ha', b, hb, b', hb', c, hc, c', hc', e⟩ := h
      simp only [Res.pure_eq, Res.ok.injEq, Prod.mk.injEq] at e
      exact ⟨[l], by rw [e.2]; rfl⟩
    · obtain ⟨u, rfl⟩ := ih h
      exact ⟨l :: u, rfl⟩

theorem readDims_append {f after : File} {d : Nat × Nat × Nat} (h : readDims f = .ok (d, after)) (r : File) :
    readDims (f ++ r) = .ok (d, after ++ r) := by
  unfold readDims gotoKeyword at *
  cases hk : gotoKeyword? cs!"SPECGRID" f with
  | none => rw [hk] at h; simp at h
  | some p =>
    obtain ⟨l, g⟩ := p
    rw [hk] at h
    simp only [Res.ofParse_some, Res.ok_bind] at h
    obtain ⟨pre, rfl, h1, h2⟩ := gotoKeyword?_some hk
    rw [List.append_assoc, List.cons_append, gotoKeyword?_skip' h1 h2]
    simp only [Res.ofParse_some, Res.ok_bind]
    exact readDimsLoop_append h r

theorem readDims_suffix {f after : File} {d : Nat × Nat × Nat} (h : readDims f = .ok (d, after)) : ∃ u, f = u ++ after := by
  unfold readDims gotoKeyword at h
  cases hk : gotoKeyword? cs!"SPECGRID" f with
  | none => rw [hk] at h; simp at h
  | some p =>
    obtain ⟨l, g⟩ := p
    rw [hk] at h
    simp only [Res.ofParse_some, Res.ok_bind] at h
    obtain ⟨pre, rfl, h1, h2⟩ := gotoKeyword?_some hk
    obtain ⟨u, e⟩ := readDimsLoop_suffix h
    exact ⟨pre ++ u, by rw [List.append_assoc, ← e]⟩

/-- A whole file without inclusion: a beginning with the dimensions, then the section of the pillars and the section of the depths, each
with its lines and its end. -/
structure Parts where
  head : File
  coord : Str
  pillars : List Str
  end1 : Str
  mid : File
  zcorn : Str
  depths : List Str
  end2 : Str
  tail : File

/-- The file. -/
def Parts.file (p : Parts) : File :=
  p.head ++ p.coord :: (p.pillars ++ p.end1 :: (p.mid ++ p.zcorn :: (p.depths ++ p.end2 :: p.tail)))

/-- The parts announce a grid of `nx` by `ny` by `nz` cells and list pillars and depths. -/
structure Parts.Good (p : Parts) (nx ny nz : Nat) (ps : List (Pillar D)) (ds : List D) : Prop where
  dims : ∃ after, readDims p.head = .ok ((nx, ny, nz), after)
  noInclude : ∀ l ∈ p.file, startsWith l cs!"INCLUDE" = false
  noCoord : ∀ l ∈ p.head, startsWith l cs!"COORD" = false
  coord : startsWith p.coord cs!"COORD" = true
  pillars : PillarLines ps p.pillars
  end1 : IsEnd p.end1
  noZcorn : ∀ l ∈ p.mid, startsWith l cs!"ZCORN" = false
  zcorn : startsWith p.zcorn cs!"ZCORN" = true
  depths : DepthLines ds p.depths
  end2 : IsEnd p.end2

section
variable [Add D] [Sub D] [Mul D] [Div D] [One D]

theorem pillarsLoop_end (size : Nat) (acc : List (Pillar D)) {l : Str} (h : IsEnd l) (rest : File) :
    pillarsLoop size acc none (l :: rest) = .ok (acc, rest) := by
  unfold IsEnd at h
  rw [pillarsLoop, if_pos h]

theorem depthsLoop_end (size : Nat) (acc : List D) {l : Str} (h : IsEnd l) (rest : File) :
    depthsLoop size acc (l :: rest) = .ok (acc, rest) := by
  unfold IsEnd at h
  rw [depthsLoop, if_pos h]

theorem load_start {merge : List (Pt D) → List (Pt D) × List Nat} {fs : Str → Option File} {head rest : File} {nx ny nz : Nat}
    (hd : ∃ after, readDims head = .ok ((nx, ny, nz), after)) (hi : ∀ l ∈ head ++ rest, startsWith l cs!"INCLUDE" = false) :
    (load merge fs (head ++ rest) : Res (Solid D)) = (do
      let (ps, r) ← (readPillars nx ny (head ++ rest) : Res (List (Pillar D) × File))
      let ds ← readDepths nx ny nz r
      createCells merge nx ny nz ps ds) := by
  obtain ⟨after, ha⟩ := hd
  obtain ⟨u, hu⟩ := readDims_suffix ha
  unfold load
  rw [readDims_append ha rest, Res.ok_bind]
  have hinc : includesLoop false (after ++ rest) = .ok [] := by
    have := includesLoop_skip (ls := after ++ rest) (fun l hl => hi l (by rw [hu]; simp at hl ⊢; tauto)) []
    rw [List.append_nil] at this
    rw [this]; rfl
  simp only [hinc, Res.ok_bind]
  rfl

/-- The outcome of loading, for any numbers of pillars and depths in the file. -/
theorem load_parts {merge : List (Pt D) → List (Pt D) × List Nat} {fs : Str → Option File} {p : Parts} {nx ny nz : Nat}
    {ps : List (Pillar D)} {ds : List D} (h : p.Good nx ny nz ps ds) :
    (load merge fs p.file : Res (Solid D)) =
      if ps.length ≤ (nx + 1) * (ny + 1) % W ∧ ds.length ≤ 8 * nx * ny * nz % W then
        createCells merge nx ny nz (ps ++ List.replicate ((nx + 1) * (ny + 1) % W - ps.length) Pillar.zero)
          (ds.map some ++ List.replicate (8 * nx * ny * nz % W - ds.length) none)
      else .ub := by
  have hstart := load_start (merge := merge) (fs := fs) (D := D) h.dims h.noInclude
  rw [Parts.file, hstart]
  unfold readPillars gotoKeyword
  rw [gotoKeyword?_skip' h.noCoord h.coord]
  simp only [Res.ofParse_some, Res.ok_bind]
  rw [pillarsLoop_lines _ h.pillars [] (Nat.zero_le _)]
  simp only [List.length_nil, Nat.zero_add, List.nil_append]
  by_cases h1 : ps.length ≤ (nx + 1) * (ny + 1) % W
  · rw [if_pos h1, pillarsLoop_end _ _ h.end1]
    simp only [Res.ok_bind, Res.pure_eq]
    unfold readDepths gotoKeyword
    rw [gotoKeyword?_skip' h.noZcorn h.zcorn]
    simp only [Res.ofParse_some, Res.ok_bind]
    rw [depthsLoop_lines _ h.depths [] (Nat.zero_le _)]
    simp only [List.length_nil, Nat.zero_add, List.nil_append]
    by_cases h2 : ds.length ≤ 8 * nx * ny * nz % W
    · rw [if_pos h2, if_pos ⟨h1, h2⟩, depthsLoop_end _ _ h.end2]
      rfl
    · rw [if_neg h2, if_neg fun h => h2 h.2]
      rfl
  · rw [if_neg h1, if_neg fun h => h1 h.1]
    rfl

/-! ## C26 -/

/-- **C26 for the announced numbers.**  A file with exactly the announced numbers of pillars and depths loads as the grid described by
`GrdeclCells.hexahedra`. -/
theorem exact_counts {merge : List (Pt D) → List (Pt D) × List Nat} {fs : Str → Option File} {p : Parts} {nx ny nz : Nat}
    {ps : List (Pillar D)} {ds : List D} (h : p.Good nx ny nz ps ds) (hW : 8 * nx * ny * nz < W) (hP : (nx + 1) * (ny + 1) < W)
    (hps : ps.length = (nx + 1) * (ny + 1)) (hds : ds.length = 8 * nx * ny * nz) :
    (load merge fs p.file : Res (Solid D)) = createCells merge nx ny nz ps (ds.map some) := by
  rw [load_parts h, Nat.mod_eq_of_lt hW, Nat.mod_eq_of_lt hP, if_pos ⟨by omega, by omega⟩, hps, hds]
  simp

/-- **C26 fails: too many pillars or depths** are written outside of the arrays. -/
theorem too_many {merge : List (Pt D) → List (Pt D) × List Nat} {fs : Str → Option File} {p : Parts} {nx ny nz : Nat}
    {ps : List (Pillar D)} {ds : List D} (h : p.Good nx ny nz ps ds) (hW : 8 * nx * ny * nz < W) (hP : (nx + 1) * (ny + 1) < W)
    (hmany : (nx + 1) * (ny + 1) < ps.length ∨ 8 * nx * ny * nz < ds.length) : (load merge fs p.file : Res (Solid D)) = .ub := by
  rw [load_parts h, Nat.mod_eq_of_lt hW, Nat.mod_eq_of_lt hP, if_neg (by omega)]

/-- With one pillar per position and one depth per corner, the cells are created. -/
theorem cells_full {merge : List (Pt D) → List (Pt D) × List Nat} {nx ny nz : Nat} {ps : List (Pillar D)} {ds : List D} (hW : 8 * nx * ny * nz < W)
    (hP : (nx + 1) * (ny + 1) < W) (hps : ps.length = (nx + 1) * (ny + 1)) (hds : ds.length = 8 * nx * ny * nz)
    (hm : ∀ pts, (merge pts).2.length = pts.length) : ∃ s, (createCells merge nx ny nz ps (ds.map some) : Res (Solid D)) = .ok s := by
  unfold createCells
  rw [corner_points hW hP hps hds, Res.ok_bind]
  generalize hpts : ((gridCells nx ny nz).flatMap fun c => corners.map (cornerPoint (nx, ny, nz) ps ds c)) = pts
  have hl : pts.length = 8 * (nx * ny * nz) := by
    rw [← hpts]
    simp only [List.length_flatMap, List.length_map, List.map_const', List.sum_replicate_nat, gridCells_length]
    have : corners.length = 8 := rfl
    rw [this]; ring
  have hml := hm pts
  have hlt : nx * ny * nz < W := by
    have : 8 * nx * ny * nz = 8 * (nx * ny * nz) := by ring
    omega
  refine ⟨⟨(merge pts).1, (List.range (nx * ny * nz)).map fun c => (List.range 8).map fun v => (merge pts).2.getD (v + 8 * c) 0⟩, ?_⟩
  show (Res.mapM' (fun c => Res.mapM' (fun v => Res.index (merge pts).2 (v + 8 * c)) (List.range 8))
    (List.range (nx * ny * nz % W)) >>= fun hexas => Res.ok (Solid.mk (merge pts).1 hexas)) = _
  rw [Nat.mod_eq_of_lt hlt, Res.mapM'_ok (g := fun c => (List.range 8).map fun v => (merge pts).2.getD (v + 8 * c) 0)]
  · rfl
  · intro c hc
    rw [List.mem_range] at hc
    apply Res.mapM'_ok
    intro v hv
    rw [List.mem_range] at hv
    exact getD_index (by omega) 0

/-- **C26 fails: too few pillars** are completed with pillars at the origin, without any message. -/
theorem too_few_pillars {merge : List (Pt D) → List (Pt D) × List Nat} {fs : Str → Option File} {p : Parts} {nx ny nz : Nat}
    {ps : List (Pillar D)} {ds : List D} (h : p.Good nx ny nz ps ds) (hW : 8 * nx * ny * nz < W) (hP : (nx + 1) * (ny + 1) < W)
    (hps : ps.length ≤ (nx + 1) * (ny + 1)) (hds : ds.length = 8 * nx * ny * nz)
    (hm : ∀ pts, (merge pts).2.length = pts.length) : ∃ s, (load merge fs p.file : Res (Solid D)) = .ok s := by
  rw [load_parts h, Nat.mod_eq_of_lt hW, Nat.mod_eq_of_lt hP, if_pos ⟨hps, by omega⟩, hds]
  simp only [Nat.sub_self, List.replicate_zero, List.append_nil]
  exact cells_full hW hP (by simp; omega) hds hm

theorem mapM'_ub {α β : Type} {g : α → Res β} {l : List α} (hg : ∀ a ∈ l, (∃ b, g a = .ok b) ∨ g a = .ub)
    {a : α} (ha : a ∈ l) (h : g a = .ub) : Res.mapM' g l = .ub := by
  induction l with
  | nil => simp at ha
  | cons x xs ih =>
    rw [Res.mapM'_cons]
    rcases hg x (by simp) with ⟨b, hb⟩ | hb
    · rw [hb, Res.ok_bind]
      rcases List.mem_cons.1 ha with rfl | ha
      · rw [h] at hb; exact absurd hb (by simp)
      · rw [ih (fun a ha => hg a (by simp [ha])) ha]; rfl
    · rw [hb]; rfl

theorem mapM'_ok_or_ub {α β : Type} {g : α → Res β} {l : List α} (hg : ∀ a ∈ l, (∃ b, g a = .ok b) ∨ g a = .ub) :
    (∃ b, Res.mapM' g l = .ok b) ∨ Res.mapM' g l = .ub := by
  induction l with
  | nil => exact Or.inl ⟨[], rfl⟩
  | cons x xs ih =>
    rw [Res.mapM'_cons]
    rcases hg x (by simp) with ⟨b, hb⟩ | hb
    · rw [hb, Res.ok_bind]
      rcases ih fun a ha => hg a (by simp [ha]) with ⟨bs, hbs⟩ | hbs
      · rw [hbs]; exact Or.inl ⟨b :: bs, rfl⟩
      · rw [hbs]; exact Or.inr rfl
    · rw [hb]; exact Or.inr rfl

/-- With missing depths, uninitialised memory is read. -/
theorem cells_few {merge : List (Pt D) → List (Pt D) × List Nat} {nx ny nz : Nat} {qs : List (Pillar D)} {ds : List D} (hW : 8 * nx * ny * nz < W)
    (hP : (nx + 1) * (ny + 1) < W) (hql : qs.length = (nx + 1) * (ny + 1)) (hfew : ds.length < 8 * nx * ny * nz) :
    (createCells merge nx ny nz qs (ds.map some ++ List.replicate (8 * nx * ny * nz - ds.length) none) : Res (Solid D)) = .ub := by
  generalize he : ds.map some ++ List.replicate (8 * nx * ny * nz - ds.length) none = es
  have hel : es.length = 8 * nx * ny * nz := by rw [← he]; simp; omega
  have henone : es[ds.length]? = some none := by
    rw [← he, List.getElem?_append_right (by simp), List.getElem?_replicate, if_pos (by simp; exact hfew)]
  have step : ∀ c, InGrid (nx, ny, nz) c → ∀ q ∈ cornerIds nx ny c.1 c.2.1 (2 * c.2.2),
      (∃ b, (do
        let p ← Res.index qs (← Res.index (pillarIds nx c.1 c.2.1) q.2)
        let d ← depthAt es q.1
        pure (interpolate d p) : Res (Pt D)) = .ok b) ∨
      (do
        let p ← Res.index qs (← Res.index (pillarIds nx c.1 c.2.1) q.2)
        let d ← depthAt es q.1
        pure (interpolate d p) : Res (Pt D)) = .ub := by
    intro c hc q hq
    have hmem : (q.1, (pillarIds nx c.1 c.2.1).getD q.2 0) ∈ corners.map fun b => (GrdeclCells.zcorn (nx, ny, nz) c b, pillarOf nx c b) := by
      rw [← cornerIds_eq hW hP hc]
      exact List.mem_map.2 ⟨q, hq, rfl⟩
    obtain ⟨b, hb, e⟩ := List.mem_map.1 hmem
    simp only [Prod.mk.injEq] at e
    have hz : q.1 < es.length := by rw [hel, ← e.1]; exact zcorn_lt hc hb
    have hp' : (pillarIds nx c.1 c.2.1).getD q.2 0 < qs.length := by rw [hql, ← e.2]; exact pillarOf_lt hc hb
    have hlt : q.2 < (pillarIds nx c.1 c.2.1).length := by
      have : ∀ q ∈ cornerIds nx ny c.1 c.2.1 (2 * c.2.2), q.2 < 4 := by simp [cornerIds]
      exact this q hq
    rw [getD_index hlt 0, Res.ok_bind, getD_index hp' Pillar.zero, Res.ok_bind]
    unfold depthAt
    rw [Res.index_of_lt hz, Res.ok_bind]
    cases es[q.1] with
    | some d => exact Or.inl ⟨_, rfl⟩
    | none => exact Or.inr rfl
  have hcell : ∀ c, InGrid (nx, ny, nz) c → (∃ b, cellPoints nx ny qs es c.1 c.2.1 (2 * c.2.2) = .ok b) ∨
      cellPoints nx ny qs es c.1 c.2.1 (2 * c.2.2) = .ub := fun c hc => mapM'_ok_or_ub (step c hc)
  have hused : ds.length ∈ depthIndices nx ny nz := (depths_used_once hW hP).mem_iff.2 (List.mem_range.2 hfew)
  unfold depthIndices at hused
  rw [cells_eq hW, List.flatMap_map, List.mem_flatMap] at hused
  obtain ⟨c, hc, hused⟩ := hused
  obtain ⟨q, hq, hq1⟩ := List.mem_map.1 hused
  have hcub : cellPoints nx ny qs es c.1 c.2.1 (2 * c.2.2) = .ub := by
    refine mapM'_ub (step c (mem_gridCells.1 hc)) hq ?_
    rcases step c (mem_gridCells.1 hc) q hq with ⟨b, hb⟩ | hb
    · exfalso
      simp only [Res.bind_eq_ok] at hb
      obtain ⟨_, _, _, _, d, hd, _⟩ := hb
      unfold depthAt at hd
      rw [hq1, Res.index_eq_ok.2 henone, Res.ok_bind] at hd
      simp at hd
    · exact hb
  have hall : allPoints nx ny nz qs es = .ub := by
    unfold allPoints
    rw [cells_eq hW, mapM'_ub (a := (c.1, c.2.1, 2 * c.2.2)) ?_ (List.mem_map.2 ⟨c, hc, rfl⟩) hcub]
    · rfl
    · intro x hx
      obtain ⟨c', hc', rfl⟩ := List.mem_map.1 hx
      exact hcell c' (mem_gridCells.1 hc')
  unfold createCells
  rw [hall]
  rfl

/-- **C26 fails: too few depths** are completed with uninitialised memory, which is read. -/
theorem too_few_depths {merge : List (Pt D) → List (Pt D) × List Nat} {fs : Str → Option File} {p : Parts} {nx ny nz : Nat}
    {ps : List (Pillar D)} {ds : List D} (h : p.Good nx ny nz ps ds) (hW : 8 * nx * ny * nz < W) (hP : (nx + 1) * (ny + 1) < W)
    (hfew : ds.length < 8 * nx * ny * nz) : (load merge fs p.file : Res (Solid D)) = .ub := by
  by_cases hps : ps.length ≤ (nx + 1) * (ny + 1)
  swap
  · exact too_many h hW hP (Or.inl (by omega))
  rw [load_parts h, Nat.mod_eq_of_lt hW, Nat.mod_eq_of_lt hP, if_pos ⟨hps, by omega⟩]
  exact cells_few hW hP (by simp; omega) hfew

/-! ## C25 -/

/-- **C25 fails: missing dimension line.**  When no line from `SPECGRID` on contains an `F`, the reader loops for ever. -/
theorem missing_dimensions {merge : List (Pt D) → List (Pt D) × List Nat} {fs : Str → Option File} {pre rest : File} {l : Str}
    (hpre : ∀ x ∈ pre, startsWith x cs!"SPECGRID" = false) (hl : startsWith l cs!"SPECGRID" = true)
    (hF : ∀ x ∈ l :: rest, contains cs!"F" x = false) : (load merge fs (pre ++ l :: rest) : Res (Solid D)) = .diverge := by
  have key : ∀ f : File, (∀ x ∈ f, contains cs!"F" x = false) → readDimsLoop f = .diverge := by
    intro f hf
    induction f with
    | nil => rfl
    | cons x xs ih => rw [readDimsLoop, if_neg (by rw [hf x (by simp)]; simp), ih fun y hy => hf y (by simp [hy])]
  unfold load readDims gotoKeyword
  rw [gotoKeyword?_skip' hpre hl]
  simp only [Res.ofParse_some, Res.ok_bind]
  rw [key _ hF]
  rfl

/-- **C25 fails: missing end of the pillars.**  A file that ends within the pillars makes the reader loop for ever. -/
theorem missing_end_of_pillars {merge : List (Pt D) → List (Pt D) × List Nat} {fs : Str → Option File} {head : File} {coord : Str}
    {lines : List Str} {nx ny nz : Nat} {ps : List (Pillar D)} (hd : ∃ after, readDims head = .ok ((nx, ny, nz), after))
    (hi : ∀ l ∈ head ++ coord :: lines, startsWith l cs!"INCLUDE" = false) (hnc : ∀ l ∈ head, startsWith l cs!"COORD" = false)
    (hc : startsWith coord cs!"COORD" = true) (hp : PillarLines ps lines) (hle : ps.length ≤ (nx + 1) * (ny + 1) % W) :
    (load merge fs (head ++ coord :: lines) : Res (Solid D)) = .diverge := by
  rw [load_start hd hi]
  unfold readPillars gotoKeyword
  rw [gotoKeyword?_skip' hnc hc]
  simp only [Res.ofParse_some, Res.ok_bind]
  have := pillarsLoop_lines ((nx + 1) * (ny + 1) % W) hp [] (Nat.zero_le _) []
  rw [List.append_nil] at this
  rw [this, if_pos (by simpa using hle)]
  rfl

/-- **C25 fails: missing end of the depths.** -/
theorem missing_end_of_depths {merge : List (Pt D) → List (Pt D) × List Nat} {fs : Str → Option File} {p : Parts} {nx ny nz : Nat}
    {ps : List (Pillar D)} {ds : List D} (h : p.Good nx ny nz ps ds) (hps : ps.length ≤ (nx + 1) * (ny + 1) % W)
    (hds : ds.length ≤ 8 * nx * ny * nz % W) :
    (load merge fs (p.head ++ p.coord :: (p.pillars ++ p.end1 :: (p.mid ++ p.zcorn :: p.depths))) : Res (Solid D)) = .diverge := by
  rw [load_start h.dims]
  · unfold readPillars gotoKeyword
    rw [gotoKeyword?_skip' h.noCoord h.coord]
    simp only [Res.ofParse_some, Res.ok_bind]
    rw [pillarsLoop_lines _ h.pillars [] (Nat.zero_le _), if_pos (by simpa using hps), pillarsLoop_end _ _ h.end1]
    simp only [Res.ok_bind, Res.pure_eq]
    unfold readDepths gotoKeyword
    rw [gotoKeyword?_skip' h.noZcorn h.zcorn]
    simp only [Res.ofParse_some, Res.ok_bind]
    have := depthsLoop_lines (8 * nx * ny * nz % W) h.depths [] (Nat.zero_le _) []
    rw [List.append_nil] at this
    rw [this, if_pos (by simpa using hds)]
    rfl
  · intro l hl
    apply h.noInclude l
    simp only [Parts.file, List.mem_append, List.mem_cons] at hl ⊢
    tauto

theorem gotoKeyword_none {kw : Str} {f : File} (h : ∀ l ∈ f, startsWith l kw = false) : gotoKeyword kw f = .throw := by
  unfold gotoKeyword
  rw [gotoKeyword?_no_kw h]
  rfl

/-- **C25 for files cut before a section.**  A file without `SPECGRID`, or without `COORD`, or without `ZCORN` after the pillars raises an
exception. -/
theorem missing_section_partial {merge : List (Pt D) → List (Pt D) × List Nat} {fs : Str → Option File} :
    (∀ f, (∀ l ∈ f, startsWith l cs!"SPECGRID" = false) → (load merge fs f : Res (Solid D)) = .throw) ∧
    (∀ head nx ny nz, (∃ after, readDims head = .ok ((nx, ny, nz), after)) → (∀ l ∈ head, startsWith l cs!"INCLUDE" = false) →
      (∀ l ∈ head, startsWith l cs!"COORD" = false) → (load merge fs head : Res (Solid D)) = .throw) ∧
    (∀ (p : Parts) nx ny nz (ps : List (Pillar D)) (ds : List D), p.Good nx ny nz ps ds → ps.length ≤ (nx + 1) * (ny + 1) % W →
      (load merge fs (p.head ++ p.coord :: (p.pillars ++ p.end1 :: p.mid)) : Res (Solid D)) = .throw) := by
  refine ⟨fun f hf => ?_, fun head nx ny nz hd hi hc => ?_, fun p nx ny nz ps ds h hps => ?_⟩
  · unfold load readDims
    rw [gotoKeyword_none hf]
    rfl
  · have := load_start (merge := merge) (fs := fs) (D := D) (rest := []) hd (by simpa using hi)
    rw [List.append_nil] at this
    rw [this]
    unfold readPillars
    rw [gotoKeyword_none hc]
    rfl
  · rw [load_start h.dims]
    · unfold readPillars gotoKeyword
      rw [gotoKeyword?_skip' h.noCoord h.coord]
      simp only [Res.ofParse_some, Res.ok_bind]
      rw [pillarsLoop_lines _ h.pillars [] (Nat.zero_le _), if_pos (by simpa using hps), pillarsLoop_end _ _ h.end1]
      simp only [Res.ok_bind, Res.pure_eq]
      unfold readDepths
      rw [gotoKeyword_none h.noZcorn]
      rfl
    · intro l hl
      apply h.noInclude l
      simp only [Parts.file, List.mem_append, List.mem_cons] at hl ⊢
      tauto

/-! ## C27 -/

/-- **C27.**  Two files that differ only by the layout of the pillars (one or two lines per pillar, blank lines) give the same result,
whatever the number of pillars. -/
theorem layout_irrelevant {merge : List (Pt D) → List (Pt D) × List Nat} {fs : Str → Option File} {p q : Parts} {nx ny nz : Nat}
    {ps : List (Pillar D)} {ds : List D} (hp : p.Good nx ny nz ps ds) (hq : { p with pillars := q.pillars }.Good nx ny nz ps ds) :
    (load merge fs { p with pillars := q.pillars }.file : Res (Solid D)) = load merge fs p.file := by
  rw [load_parts hp, load_parts hq]

/-- The same for the pillars of an included file. -/
theorem layout_irrelevant_included {nx ny : Nat} {ps : List (Pillar D)} {ls ls' : List Str} (h : PillarLines ps ls) (h' : PillarLines ps ls')
    {pre rest : File} {coord end1 : Str} (hpre : ∀ l ∈ pre, startsWith l cs!"COORD" = false) (hc : startsWith coord cs!"COORD" = true)
    (he : IsEnd end1) :
    (readPillars nx ny (pre ++ coord :: (ls ++ end1 :: rest)) : Res (List (Pillar D) × File)) =
      readPillars nx ny (pre ++ coord :: (ls' ++ end1 :: rest)) := by
  unfold readPillars gotoKeyword
  rw [gotoKeyword?_skip' hpre hc, gotoKeyword?_skip' hpre hc]
  simp only [Res.ofParse_some, Res.ok_bind]
  rw [pillarsLoop_lines _ h [] (Nat.zero_le _), pillarsLoop_lines _ h' [] (Nat.zero_le _), pillarsLoop_end _ _ he]

end

/-! ## Examples -/

/-- A grid of one cell; the third pillar is on two lines. -/
def parts1 : Parts where
  head := [cs!"SPECGRID", cs!"1 1 1 1 F /"]
  coord := cs!"COORD"
  pillars := [cs!"0 0 0 0 0 9", cs!"1 0 0 1 0 9", cs!"0 1 0", cs!"0 1 9", cs!"", cs!"1 1 0 1 1 9"]
  end1 := cs!"/"
  mid := [cs!""]
  zcorn := cs!"ZCORN"
  depths := [cs!"1 1 1 1", cs!"2 2 2", cs!"2"]
  end2 := cs!"/"
  tail := []

def pillars1 : List (Pillar Int) :=
  [⟨⟨0, 0, 0⟩, ⟨0, 0, 9⟩⟩, ⟨⟨1, 0, 0⟩, ⟨1, 0, 9⟩⟩, ⟨⟨0, 1, 0⟩, ⟨0, 1, 9⟩⟩, ⟨⟨1, 1, 0⟩, ⟨1, 1, 9⟩⟩]

theorem parts1_pillars : PillarLines pillars1 parts1.pillars := by
  refine .one (a := cs!"0") (b := cs!"0") (c := cs!"0") (d := cs!"0") (e := cs!"0") (f := cs!"9") ⟨by decide, by decide⟩ (by decide +kernel)
    ⟨_, _, _, _, rfl, by decide +kernel⟩ ⟨_, _, _, _, rfl, by decide +kernel⟩ ?_
  refine .one (a := cs!"1") (b := cs!"0") (c := cs!"0") (d := cs!"1") (e := cs!"0") (f := cs!"9") ⟨by decide, by decide⟩ (by decide +kernel)
    ⟨_, _, _, _, rfl, by decide +kernel⟩ ⟨_, _, _, _, rfl, by decide +kernel⟩ ?_
  refine .two (a := cs!"0") (b := cs!"1") (c := cs!"0") ⟨by decide, by decide⟩ ⟨by decide, by decide⟩ (by decide +kernel)
    ⟨_, _, _, _, rfl, by decide +kernel⟩ ⟨cs!"0", cs!"1", cs!"9", [], by decide +kernel, by decide +kernel⟩ ?_
  refine .blank ⟨by decide, by decide⟩ (by decide) ?_
  exact .one (a := cs!"1") (b := cs!"1") (c := cs!"0") (d := cs!"1") (e := cs!"1") (f := cs!"9") ⟨by decide, by decide⟩ (by decide +kernel)
    ⟨_, _, _, _, rfl, by decide +kernel⟩ ⟨_, _, _, _, rfl, by decide +kernel⟩ .nil

/-- The hypotheses of `exact_counts` hold for the example. -/
theorem parts1_good : parts1.Good 1 1 1 pillars1 [1, 1, 1, 1, 2, 2, 2, 2] where
  dims := ⟨[], by decide +kernel⟩
  noInclude := by decide +kernel
  noCoord := by decide +kernel
  coord := by decide
  pillars := parts1_pillars
  end1 := by unfold IsEnd; decide
  noZcorn := by decide
  zcorn := by decide
  depths := by
    refine ⟨?_, ?_⟩
    · intro l hl
      unfold Inside
      revert l
      decide +kernel
    · have e : parts1.depths.flatMap split = [cs!"1", cs!"1", cs!"1", cs!"1", cs!"2", cs!"2", cs!"2", cs!"2"] := by decide +kernel
      rw [e]
      repeat (first | exact .nil | refine .cons (by decide +kernel) ?_)
  end2 := by unfold IsEnd; decide

/-- The cell of the example between depths 9 and 0, loaded with exact arithmetic on integers (depths at the ends of the pillars). -/
example : (load (fun pts => (pts, List.range pts.length)) (fun _ => none)
      { parts1 with depths := [cs!"0 0 0 0 9 9 9 9"] }.file : Res (Solid Int)) =
    .ok ⟨[⟨0, 1, 9⟩, ⟨1, 1, 9⟩, ⟨1, 0, 9⟩, ⟨0, 0, 9⟩, ⟨0, 1, 0⟩, ⟨1, 1, 0⟩, ⟨1, 0, 0⟩, ⟨0, 0, 0⟩], [[0, 1, 2, 3, 4, 5, 6, 7]]⟩ := by
  decide +kernel

/-- Three pillars instead of four: loaded with the fourth pillar at the origin. -/
example : ∃ s, (load (fun pts => (pts, List.range pts.length)) (fun _ => none)
      { parts1 with pillars := [cs!"0 0 0 0 0 9", cs!"1 0 0 1 0 9", cs!"0 1 0 0 1 9"], depths := [cs!"0 0 0 0 9 9 9 9"] }.file
        : Res (Solid Int)) = .ok s ∧ s.points[1]? = some ⟨0, 0, 0⟩ := by
  exact ⟨⟨[⟨0, 1, 9⟩, ⟨0, 0, 0⟩, ⟨1, 0, 9⟩, ⟨0, 0, 9⟩, ⟨0, 1, 0⟩, ⟨0, 0, 0⟩, ⟨1, 0, 0⟩, ⟨0, 0, 0⟩], [[0, 1, 2, 3, 4, 5, 6, 7]]⟩,
    by decide +kernel, rfl⟩

/-- The sections may be in included files. -/
example : (load (fun pts => (pts, List.range pts.length))
      (fun n => if n = cs!"a_COORD.x" then some (cs!"COORD" :: (parts1.pillars ++ [cs!"/"]))
        else if n = cs!"a_ZCORN.x" then some [cs!"ZCORN", cs!"0 0 0 0 9 9 9 9", cs!"/"] else none)
      [cs!"SPECGRID", cs!"1 1 1 1 F /", cs!"INCLUDE", cs!"'a_COORD.x' /", cs!"INCLUDE", cs!" 'a_ZCORN.x' /"] : Res (Solid Int)) =
    .ok ⟨[⟨0, 1, 9⟩, ⟨1, 1, 9⟩, ⟨1, 0, 9⟩, ⟨0, 0, 9⟩, ⟨0, 1, 0⟩, ⟨1, 1, 0⟩, ⟨1, 0, 0⟩, ⟨0, 0, 0⟩], [[0, 1, 2, 3, 4, 5, 6, 7]]⟩ := by
  decide +kernel

end Verif.Props.GrdeclText
