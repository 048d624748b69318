import Verif.Props.GrdeclGrid
import Verif.Props.GrdeclOrder

/-!
# C198 and C199: cells without thickness and inactive cells of corner point grids
-/

set_option linter.unusedSectionVars false

namespace Verif.Props.GrdeclPinch

open Verif Verif.Grdecl Verif.Radix Verif.Props.GrdeclCells Verif.Props.GrdeclText Verif.Props.GrdeclGrid

variable {D : Type} [Num D]

/-! ## C198: the vertices of a hexahedron -/

/-- The eight vertices of the hexahedron number `i` are distinct. -/
def Eight (s : Solid D) (i : Nat) : Prop := ∀ v < 8, ∀ v' < 8, vertex s i v = vertex s i v' → v = v'

/-- The cell has some thickness along its four sides: on each of its pillars, the depths of its top and of its bottom are different. -/
def Thick (n : Nat × Nat × Nat) (ds : List D) (c : Nat × Nat × Nat) : Prop :=
  ∀ x ≤ 1, ∀ y ≤ 1, ds[zcorn n c (x, y, 0)]? ≠ ds[zcorn n c (x, y, 1)]?

/-- Two corners are on the same side of a cell. -/
theorem side_of {b b' : Nat × Nat × Nat} (hb : b ∈ corners) (hb' : b' ∈ corners) (h : b.1 = b'.1 ∧ b.2.1 = b'.2.1) (hne : b ≠ b') :
    (b = (b.1, b.2.1, 0) ∧ b' = (b.1, b.2.1, 1)) ∨ (b = (b.1, b.2.1, 1) ∧ b' = (b.1, b.2.1, 0)) := by
  have all : ∀ b ∈ corners, ∀ b' ∈ corners, b.1 = b'.1 ∧ b.2.1 = b'.2.1 → b ≠ b' →
      (b = (b.1, b.2.1, 0) ∧ b' = (b.1, b.2.1, 1)) ∨ (b = (b.1, b.2.1, 1) ∧ b' = (b.1, b.2.1, 0)) := by decide
  exact all b hb b' hb' h hne

theorem corners_inj {v v' : Nat} {b : Nat × Nat × Nat} (h : corners[v]? = some b) (h' : corners[v']? = some b) : v = v' := by
  have nd : corners.Nodup := by decide
  obtain ⟨l, e⟩ := List.getElem?_eq_some_iff.1 h
  obtain ⟨l', e'⟩ := List.getElem?_eq_some_iff.1 h'
  exact (List.Nodup.getElem_inj_iff nd).1 (e.trans e'.symm)

section
variable [Add D] [Sub D] [Mul D] [Div D] [One D]

/-- What is asked of a file: it announces a grid and has the announced numbers of pillars and depths, and no two corners of cells are near
without being the same point. -/
structure Fine (near : Pt D → Pt D → Prop) (p : Parts) (nx ny nz : Nat) (ps : List (Pillar D)) (ds : List D) : Prop where
  good : p.Good nx ny nz ps ds
  small : 8 * nx * ny * nz < W ∧ (nx + 1) * (ny + 1) < W
  numbers : ps.length = (nx + 1) * (ny + 1) ∧ ds.length = 8 * nx * ny * nz
  apart : ∀ c, InGrid (nx, ny, nz) c → ∀ b ∈ corners, ∀ c', InGrid (nx, ny, nz) c' → ∀ b' ∈ corners,
    near (cornerPoint (nx, ny, nz) ps ds c b) (cornerPoint (nx, ny, nz) ps ds c' b') →
    cornerPoint (nx, ny, nz) ps ds c b = cornerPoint (nx, ny, nz) ps ds c' b'

/-- **C198**: every hexahedron of a loaded grid has eight distinct vertices. -/
def AllEight (D : Type) [Num D] [Add D] [Sub D] [Mul D] [Div D] [One D] : Prop :=
  ∀ (near : Pt D → Pt D → Prop) (merge : List (Pt D) → List (Pt D) × List Nat) (fs : Str → Option File) (p : Parts) (nx ny nz : Nat) (ps : List (Pillar D))
    (ds : List D) (s : Solid D), Colocates near merge → Fine near p nx ny nz ps ds → load merge fs p.file = .ok s → ∀ i < s.hexas.length, Eight s i

/-- **C198, for every grid**: a hexahedron has eight distinct vertices exactly when the eight corners of its cell are distinct points. -/
theorem eight_iff {near : Pt D → Pt D → Prop} {merge : List (Pt D) → List (Pt D) × List Nat} (hm : Colocates near merge)
    {fs : Str → Option File} {p : Parts} {nx ny nz : Nat} {ps : List (Pillar D)} {ds : List D} (h : Fine near p nx ny nz ps ds) :
    ∃ s, (load merge fs p.file : Res (Solid D)) = .ok s ∧ s.hexas.length = nx * ny * nz ∧ ∀ i c, (gridCells nx ny nz)[i]? = some c →
      (Eight s i ↔ ∀ b ∈ corners, ∀ b' ∈ corners, cornerPoint (nx, ny, nz) ps ds c b = cornerPoint (nx, ny, nz) ps ds c b' → b = b') := by
  obtain ⟨s, hs, hl, hv⟩ := vertices_shared hm (fs := fs) h.good h.small.1 h.small.2 h.numbers.1 h.numbers.2 h.apart
  refine ⟨s, hs, hl, ?_⟩
  intro i c hi
  constructor
  · intro he b hb b' hb' e
    obtain ⟨v, hvl, hvb⟩ := List.getElem_of_mem hb
    obtain ⟨v', hvl', hvb'⟩ := List.getElem_of_mem hb'
    have g1 : corners[v]? = some b := by rw [List.getElem?_eq_getElem hvl, hvb]
    have g2 : corners[v']? = some b' := by rw [List.getElem?_eq_getElem hvl', hvb']
    have := he v hvl v' hvl' ((hv i c hi v b g1 i c hi v' b' g2).2 e)
    subst this
    rw [g1] at g2
    exact Option.some.inj g2
  · intro hc v hvl v' hvl' e
    have hv8 : corners.length = 8 := rfl
    have g1 : corners[v]? = some corners[v] := List.getElem?_eq_getElem _
    have g2 : corners[v']? = some corners[v'] := List.getElem?_eq_getElem _
    have := hc _ (List.getElem_mem _) _ (List.getElem_mem _) ((hv i c hi v _ g1 i c hi v' _ g2).1 e)
    rw [← this] at g2
    exact corners_inj g1 g2

/-- **C198 for cells without thickness**: whatever the arithmetic, when the top and the bottom of a cell have the same depth on a pillar,
its hexahedron has less than eight vertices. -/
theorem pinched {near : Pt D → Pt D → Prop} {merge : List (Pt D) → List (Pt D) × List Nat} (hm : Colocates near merge)
    {fs : Str → Option File} {p : Parts} {nx ny nz : Nat} {ps : List (Pillar D)} {ds : List D} (h : Fine near p nx ny nz ps ds) :
    ∃ s, (load merge fs p.file : Res (Solid D)) = .ok s ∧ s.hexas.length = nx * ny * nz ∧ ∀ i c, (gridCells nx ny nz)[i]? = some c →
      ¬ Thick (nx, ny, nz) ds c → ¬ Eight s i := by
  obtain ⟨s, hs, hl, he⟩ := eight_iff hm (fs := fs) h
  refine ⟨s, hs, hl, ?_⟩
  intro i c hi ht h8
  rw [he i c hi] at h8
  apply ht
  intro x hx y hy e
  have := h8 (x, y, 0) (mem_corners.2 ⟨hx, hy, by omega⟩) (x, y, 1) (mem_corners.2 ⟨hx, hy, by omega⟩) (by
    unfold cornerPoint
    rw [List.getD_eq_getElem?_getD, e, ← List.getD_eq_getElem?_getD]
    rfl)
  simp at this

end

/-- **C198, exactly when it holds**: with exact arithmetic, for cells of which the pillars are not horizontal and do not meet, the
hexahedron has eight distinct vertices exactly when the cell has some thickness along its four sides. -/
theorem eight_partial {K : Type} [Num K] [Field K] {near : Pt K → Pt K → Prop} {merge : List (Pt K) → List (Pt K) × List Nat} (hm : Colocates near merge)
    {fs : Str → Option File} {p : Parts} {nx ny nz : Nat} {ps : List (Pillar K)} {ds : List K} (h : Fine near p nx ny nz ps ds) :
    ∃ s, (load merge fs p.file : Res (Solid K)) = .ok s ∧ s.hexas.length = nx * ny * nz ∧ ∀ i c, (gridCells nx ny nz)[i]? = some c →
      (∀ b ∈ corners, ∀ q, ps[pillarOf nx c b]? = some q → q.bottom.z ≠ q.top.z) →
      (∀ b ∈ corners, ∀ b' ∈ corners, ∀ q q', ps[pillarOf nx c b]? = some q → ps[pillarOf nx c b']? = some q' →
        pillarOf nx c b ≠ pillarOf nx c b' → ∀ z z' : K, interpolate z q ≠ interpolate z' q') →
      (Eight s i ↔ Thick (nx, ny, nz) ds c) := by
  obtain ⟨s, hs, hl, he⟩ := eight_iff hm (fs := fs) h
  refine ⟨s, hs, hl, ?_⟩
  intro i c hi hz hm'
  have hc := mem_gridCells.1 (List.mem_of_getElem? hi)
  have pil : ∀ b ∈ corners, ∃ q, ps[pillarOf nx c b]? = some q ∧ ps.getD (pillarOf nx c b) Pillar.zero = q := by
    intro b hb
    have hlt : pillarOf nx c b < ps.length := by rw [h.numbers.1]; exact pillarOf_lt hc hb
    exact ⟨ps[pillarOf nx c b], List.getElem?_eq_getElem hlt, by simp [hlt]⟩
  have zc : ∀ b ∈ corners, ∃ z, ds[zcorn (nx, ny, nz) c b]? = some z ∧ ds.getD (zcorn (nx, ny, nz) c b) Num.zero = z := by
    intro b hb
    have hlt : zcorn (nx, ny, nz) c b < ds.length := by rw [h.numbers.2]; exact zcorn_lt hc hb
    exact ⟨ds[zcorn (nx, ny, nz) c b], List.getElem?_eq_getElem hlt, by simp [hlt]⟩
  constructor
  · intro h8
    by_contra ht
    obtain ⟨s', hs', _, hp⟩ := pinched hm (fs := fs) h
    rw [hs] at hs'
    injection hs' with hs'
    subst hs'
    exact hp i c hi ht h8
  · intro ht
    rw [he i c hi]
    intro b hb b' hb' e
    by_contra hne
    obtain ⟨q, hq, hq'⟩ := pil b hb
    obtain ⟨r, hr, hr'⟩ := pil b' hb'
    obtain ⟨z, hz1, hz2⟩ := zc b hb
    obtain ⟨w, hw1, hw2⟩ := zc b' hb'
    by_cases hp : pillarOf nx c b = pillarOf nx c b'
    · have hxy : b.1 = b'.1 ∧ b.2.1 = b'.2.1 := by
        have bound : ∀ b ∈ corners, b.1 ≤ 1 ∧ b.2.1 ≤ 1 ∧ b.2.2 ≤ 1 := by decide
        have h1 := bound b hb
        have h2 := bound b' hb'
        have hx : 0 < nx := by have := hc.1; dsimp only at this; omega
        unfold pillarOf at hp
        have : b.2.1 = b'.2.1 := by
          rcases Nat.lt_trichotomy b.2.1 b'.2.1 with hlt | heq | hgt
          · have e1 : b.2.1 = 0 := by omega
            have e2 : b'.2.1 = 1 := by omega
            rw [e1, e2, Nat.mul_add, Nat.mul_add] at hp
            omega
          · exact heq
          · have e1 : b.2.1 = 1 := by omega
            have e2 : b'.2.1 = 0 := by omega
            rw [e1, e2, Nat.mul_add, Nat.mul_add] at hp
            omega
        rw [this] at hp
        exact ⟨by omega, this⟩
      have hqz := hz b hb q hq
      rw [throw_separates (n := (nx, ny, nz)) hp (by dsimp only; rw [hq']; exact hqz), hz2, hw2] at e
      subst e
      have hside := side_of hb hb' hxy hne
      have bx : b.1 ≤ 1 ∧ b.2.1 ≤ 1 := by
        have bound : ∀ b ∈ corners, b.1 ≤ 1 ∧ b.2.1 ≤ 1 := by decide
        exact bound b hb
      have := ht b.1 bx.1 b.2.1 bx.2
      rcases hside with ⟨e1, e2⟩ | ⟨e1, e2⟩
      · rw [← e1, ← e2, hz1, hw1] at this
        exact this rfl
      · rw [← e1, ← e2, hz1, hw1] at this
        exact this rfl
    · unfold cornerPoint at e
      dsimp only at e
      rw [hq', hr', hz2, hw2] at e
      exact hm' b hb b' hb' q r hq hr hp z w e

/-! ## C199: inactive cells -/

section
variable [Add D] [Sub D] [Mul D] [Div D] [One D]

theorem mapM_length {α β : Type} {f : α → Res β} : ∀ {l : List α} {r : List β}, Res.mapM' f l = .ok r → r.length = l.length := by
  intro l
  induction l with
  | nil => intro r h; cases h; rfl
  | cons a l ih =>
    intro r h
    rw [Res.mapM'_cons] at h
    obtain ⟨b, _, h⟩ := Res.bind_eq_ok.1 h
    obtain ⟨bs, hb, h⟩ := Res.bind_eq_ok.1 h
    cases h
    simp [ih hb]

/-- **C199, for every file**: a grid that loads has one hexahedron per cell of its dimensions, whatever else its file says. -/
theorem all_cells {merge : List (Pt D) → List (Pt D) × List Nat} {fs : Str → Option File} {f : File} {s : Solid D} (h : load merge fs f = .ok s) :
    ∃ nx ny nz after, readDims f = .ok ((nx, ny, nz), after) ∧ s.hexas.length = nx * ny * nz % W := by
  unfold load at h
  obtain ⟨⟨⟨nx, ny, nz⟩, after⟩, h1, h⟩ := Res.bind_eq_ok.1 h
  obtain ⟨inc, _, h⟩ := Res.bind_eq_ok.1 h
  obtain ⟨⟨ps, rest⟩, _, h⟩ := Res.bind_eq_ok.1 h
  obtain ⟨ds, _, h⟩ := Res.bind_eq_ok.1 h
  unfold createCells at h
  obtain ⟨pts, _, h⟩ := Res.bind_eq_ok.1 h
  obtain ⟨hexas, hh, h⟩ := Res.bind_eq_ok.1 h
  cases h
  refine ⟨nx, ny, nz, after, h1, ?_⟩
  have := mapM_length hh
  rw [List.length_range] at this
  exact this

open Verif.Props.GrdeclOrder

/-- The lines of an `ACTNUM` section: 1 for the active cells, 0 for the others. -/
def actnum (act : List Bool) : List Str := [cs!"ACTNUM", spaced (act.map fun a => if a then cs!"1" else cs!"0"), cs!"/"]

/-- **C199**: a grid has one hexahedron per active cell. -/
def ActiveOnly (D : Type) [Num D] [Add D] [Sub D] [Mul D] [Div D] [One D] : Prop :=
  ∀ (merge : List (Pt D) → List (Pt D) × List Nat) (fs : Str → Option File) (nx ny nz : Nat) (ps : List (Pillar D)) (ds : List D) (is js : List Piece)
    (act : List Bool) (s : Solid D), Grid (nx, ny, nz) ps ds (is ++ js) → DepthsAfter (is ++ js) → nx * ny * nz < W → act.length = nx * ny * nz →
    load merge fs (GrdeclOrder.fileOf is ++ (actnum act ++ GrdeclOrder.fileOf js)) = .ok s → s.hexas.length = act.count true

theorem actnum_plain (act : List Bool) : ∀ l ∈ actnum act, Plain l := by
  intro l hl
  simp only [actnum, List.mem_cons, List.not_mem_nil, or_false] at hl
  rcases hl with rfl | rfl | rfl
  · unfold Plain; decide
  · cases act with
    | nil => unfold Plain; decide
    | cons a act =>
      intro k hk
      simp only [List.map_cons, spaced, List.cons_append]
      simp only [List.mem_cons, List.not_mem_nil, or_false] at hk
      rcases hk with rfl | rfl | rfl | rfl <;> rfl
  · unfold Plain; decide

/-- **C199: the section is ignored**, wherever it is between the others. -/
theorem inactive_ignored {merge : List (Pt D) → List (Pt D) × List Nat} {fs : Str → Option File} {d : Nat × Nat × Nat} {ps : List (Pillar D)} {ds : List D}
    {is js : List Piece} (h : Grid d ps ds (is ++ js)) (ha : DepthsAfter (is ++ js)) (act : List Bool) :
    (load merge fs (GrdeclOrder.fileOf is ++ (actnum act ++ GrdeclOrder.fileOf js)) : Res (Solid D)) = load merge fs (GrdeclOrder.fileOf (is ++ js)) :=
  others_partial h ha (actnum_plain act)

theorem dims_of_load {merge : List (Pt D) → List (Pt D) × List Nat} {fs : Str → Option File} {nx ny nz : Nat} {ps : List (Pillar D)} {ds : List D}
    {is : List Piece} (h : Grid (nx, ny, nz) ps ds is) (ha : DepthsAfter is) {s : Solid D} (hs : load merge fs (GrdeclOrder.fileOf is) = .ok s) :
    s.hexas.length = nx * ny * nz % W := by
  obtain ⟨pre, i, post, rfl, h1, h2, h3⟩ := ha
  rw [load_pieces h.gives h.dims h1 h2] at hs
  rw [if_pos h3] at hs
  split at hs
  · split at hs
    · unfold createCells at hs
      obtain ⟨pts, _, hs⟩ := Res.bind_eq_ok.1 hs
      obtain ⟨hexas, hh, hs⟩ := Res.bind_eq_ok.1 hs
      cases hs
      have := mapM_length hh
      rw [List.length_range] at this
      exact this
    · cases hs
  · cases hs

/-- **C199, exactly when it holds**: a grid with an `ACTNUM` section has one hexahedron per active cell exactly when all its cells are
active.  The full statement is `ActiveOnly`. -/
theorem active_partial {merge : List (Pt D) → List (Pt D) × List Nat} {fs : Str → Option File} {nx ny nz : Nat} {ps : List (Pillar D)} {ds : List D}
    {is js : List Piece} {act : List Bool} {s : Solid D} (h : Grid (nx, ny, nz) ps ds (is ++ js)) (ha : DepthsAfter (is ++ js)) (hW : nx * ny * nz < W)
    (hl : act.length = nx * ny * nz) (hs : load merge fs (GrdeclOrder.fileOf is ++ (actnum act ++ GrdeclOrder.fileOf js)) = .ok s) :
    s.hexas.length = act.count true ↔ ∀ a ∈ act, a = true := by
  rw [inactive_ignored h ha act] at hs
  rw [dims_of_load h ha hs, Nat.mod_eq_of_lt hW, ← hl, eq_comm, List.count_eq_length]
  constructor
  · intro e a ha; exact (e a ha).symm
  · intro e a ha; exact (e a ha).symm

end

/-! ## Witnesses -/

open Verif.Props.GrdeclOrder

/-- A grid of one cell which is pinched along one side. -/
def partsPinched : Parts := { parts1 with depths := [cs!"0 0 0 9 9 9 9 9"] }

theorem depths_pinched : DepthLines ([0, 0, 0, 9, 9, 9, 9, 9] : List Int) [cs!"0 0 0 9 9 9 9 9"] := by
  refine ⟨?_, ?_⟩
  · intro l hl
    unfold Inside
    revert l
    decide +kernel
  · have e : [cs!"0 0 0 9 9 9 9 9"].flatMap split = [cs!"0", cs!"0", cs!"0", cs!"9", cs!"9", cs!"9", cs!"9", cs!"9"] := by decide +kernel
    rw [e]
    repeat (first | exact .nil | refine .cons (by decide +kernel) ?_)

theorem pinched_good : partsPinched.Good 1 1 1 pillars1 [0, 0, 0, 9, 9, 9, 9, 9] :=
  { parts1_good with
    noInclude := by decide +kernel
    depths := depths_pinched }

theorem pinched_fine : Fine (fun p q => p = q) partsPinched 1 1 1 pillars1 [0, 0, 0, 9, 9, 9, 9, 9] where
  good := pinched_good
  small := by decide
  numbers := ⟨rfl, rfl⟩
  apart _ _ _ _ _ _ _ _ e := e

/-- **C198 fails**: the cell pinched along one side is loaded as a hexahedron with a vertex twice. -/
theorem not_allEight : ¬ AllEight Int := by
  intro h
  obtain ⟨s, hs, hl, hp⟩ := pinched (mergeEqual_colocates (D := Int)) (fs := fun _ => none) pinched_fine
  refine hp 0 (0, 0, 0) (by decide) ?_ (h _ _ _ _ _ _ _ _ _ s mergeEqual_colocates pinched_fine hs 0 (by rw [hl]; decide))
  intro ht
  exact ht 1 (by omega) 1 (by omega) (by decide +kernel)

/-- The hexahedron of the pinched cell. -/
example : ((load mergeEqual (fun _ => none) partsPinched.file : Res (Solid Int)) >>= fun s => .ok (s.points.length, s.hexas.map fun h => h.dedup.length)) =
    .ok (7, [7]) := by decide +kernel

/-- **C199 fails**: a grid with no active cell is loaded with its cell. -/
theorem not_activeOnly : ¬ ActiveOnly Int := by
  intro h
  obtain ⟨s, hs⟩ := order_matters.2.2
  have hg := grid1 (List.Perm.refl _)
  have ha : DepthsAfter ([dims1] ++ [coord1, zcorn1, .other cs!"PINCH"]) :=
    ⟨[dims1], coord1, [zcorn1, .other cs!"PINCH"], rfl, rfl, by simp [dims1, Piece.isPillars], zcorn1, by simp, rfl⟩
  have hs' := (inactive_ignored (merge := GrdeclRefused.keep) (fs := fun _ => none) (is := [dims1]) (js := [coord1, zcorn1, .other cs!"PINCH"]) hg ha [false]).trans hs
  have := h GrdeclRefused.keep (fun _ => none) 1 1 1 _ _ [dims1] [coord1, zcorn1, .other cs!"PINCH"] [false] s hg ha (by decide) rfl hs'
  rw [dims_of_load hg ha hs] at this
  exact absurd this (by decide)

/-! ### A cell in rational numbers -/

/-- Rational numbers, read as integers. -/
local instance : Num Rat where
  parse s := (parseZ s).map fun z => (z : Rat)
  fmt r := showInt r.num
  round := id
  neg := Rat.neg
  castF := id
  zero := 0
  noData := -99999

/-- The depths of a cell between 1 and 2. -/
def thickDepths : List Rat := [1, 1, 1, 1, 2, 2, 2, 2]

/-- The vertical pillars at the corners of a square. -/
def pillarAt (x y : Rat) : Pillar Rat := ⟨⟨x, y, 0⟩, ⟨x, y, 9⟩⟩

/-- The four pillars. -/
def thickPillars : List (Pillar Rat) := [pillarAt 0 0, pillarAt 1 0, pillarAt 0 1, pillarAt 1 1]

/-- The file. -/
def partsThick : Parts :=
  { parts1 with pillars := [cs!"0 0 0 0 0 9", cs!"1 0 0 1 0 9", cs!"0 1 0 0 1 9", cs!"1 1 0 1 1 9"], depths := [cs!"1 1 1 1 2 2 2 2"] }

theorem thick_fine : Fine (fun p q => p = q) partsThick 1 1 1 thickPillars thickDepths where
  good := {
    dims := ⟨[], by decide +kernel⟩
    noInclude := by decide +kernel
    noCoord := by decide +kernel
    coord := by decide
    pillars := by
      refine .one (a := cs!"0") (b := cs!"0") (c := cs!"0") (d := cs!"0") (e := cs!"0") (f := cs!"9") ⟨by decide, by decide⟩ (by decide +kernel)
        ⟨_, _, _, _, rfl, by decide +kernel⟩ ⟨_, _, _, _, rfl, by decide +kernel⟩ ?_
      refine .one (a := cs!"1") (b := cs!"0") (c := cs!"0") (d := cs!"1") (e := cs!"0") (f := cs!"9") ⟨by decide, by decide⟩ (by decide +kernel)
        ⟨_, _, _, _, rfl, by decide +kernel⟩ ⟨_, _, _, _, rfl, by decide +kernel⟩ ?_
      refine .one (a := cs!"0") (b := cs!"1") (c := cs!"0") (d := cs!"0") (e := cs!"1") (f := cs!"9") ⟨by decide, by decide⟩ (by decide +kernel)
        ⟨_, _, _, _, rfl, by decide +kernel⟩ ⟨_, _, _, _, rfl, by decide +kernel⟩ ?_
      exact .one (a := cs!"1") (b := cs!"1") (c := cs!"0") (d := cs!"1") (e := cs!"1") (f := cs!"9") ⟨by decide, by decide⟩ (by decide +kernel)
        ⟨_, _, _, _, rfl, by decide +kernel⟩ ⟨_, _, _, _, rfl, by decide +kernel⟩ .nil
    end1 := by unfold IsEnd; decide
    noZcorn := by decide
    zcorn := by decide
    depths := by
      refine ⟨?_, ?_⟩
      · intro l hl
        unfold Inside
        revert l
        decide +kernel
      · have e : partsThick.depths.flatMap split = [cs!"1", cs!"1", cs!"1", cs!"1", cs!"2", cs!"2", cs!"2", cs!"2"] := by decide +kernel
        rw [e]
        unfold thickDepths
        repeat (first | exact .nil | refine .cons (by decide +kernel) ?_)
    end2 := by unfold IsEnd; decide }
  small := by decide
  numbers := ⟨rfl, rfl⟩
  apart _ _ _ _ _ _ _ _ e := e

/-- The hypotheses of `eight_partial` hold for it: its hexahedron has eight distinct vertices. -/
example : ∃ s, (load mergeEqual (fun _ => none) partsThick.file : Res (Solid Rat)) = .ok s ∧ Eight s 0 := by
  obtain ⟨s, hs, _, h⟩ := eight_partial (mergeEqual_colocates (D := Rat)) (fs := fun _ => none) thick_fine
  refine ⟨s, hs, (h 0 (0, 0, 0) (by decide) ?_ ?_).2 ?_⟩
  · decide +kernel
  · have at_ : ∀ x y z : Rat, (interpolate z (pillarAt x y)).x = x ∧ (interpolate z (pillarAt x y)).y = y := by
      intro x y z
      constructor <;> simp only [interpolate, pillarAt] <;> ring
    have key : ∀ x y x' y' z z' : Rat, (x, y) ≠ (x', y') → interpolate z (pillarAt x y) ≠ interpolate z' (pillarAt x' y') := by
      intro x y x' y' z z' hne e
      have ex := congrArg Pt.x e
      have ey := congrArg Pt.y e
      rw [(at_ x y z).1, (at_ x' y' z').1] at ex
      rw [(at_ x y z).2, (at_ x' y' z').2] at ey
      exact hne (by rw [ex, ey])
    intro b hb b' hb' q q' hq hq' hne z z'
    have all : ∀ b ∈ corners, thickPillars[pillarOf 1 (0, 0, 0) b]? = some (pillarAt b.1 b.2.1) := by decide +kernel
    rw [all b hb] at hq
    rw [all b' hb'] at hq'
    cases hq
    cases hq'
    refine key _ _ _ _ z z' ?_
    have apart : ∀ b ∈ corners, ∀ b' ∈ corners, pillarOf 1 (0, 0, 0) b ≠ pillarOf 1 (0, 0, 0) b' →
        ((b.1 : Rat), (b.2.1 : Rat)) ≠ ((b'.1 : Rat), (b'.2.1 : Rat)) := by decide +kernel
    exact apart b hb b' hb' hne
  · intro x hx y hy
    have all : ∀ x ≤ 1, ∀ y ≤ 1, thickDepths[zcorn (1, 1, 1) (0, 0, 0) (x, y, 0)]? ≠ thickDepths[zcorn (1, 1, 1) (0, 0, 0) (x, y, 1)]? := by decide +kernel
    exact all x hx y hy

end Verif.Props.GrdeclPinch
