import Verif.Props.GrdeclRefused

/-!
# C190, C191 and C192: order, notations and keywords of the sections of a corner point grid

The sections of a `.grdecl` file are, for the programs that use this format, found by their keywords whatever their order; the values of a section
may be ended by a `/` on their last line, repeated with `n*value` and cut by lines of comment.
-/

set_option linter.unusedSectionVars false

namespace Verif.Props.GrdeclOrder

open Verif Verif.Grdecl Verif.Props.GrdeclText Verif.Props.GocadTruncated
open Verif.Props.GrdeclDims (ThreeNumbers)

variable {D : Type} [Num D]

/-! ## Specification -/

/-- The lines that start no section. -/
def Plain (l : Str) : Prop := ∀ k ∈ [cs!"SPECGRID", cs!"COORD", cs!"ZCORN", cs!"INCLUDE"], startsWith l k = false

/-- A piece of a file: a section, or a line of something else. -/
inductive Piece
  | dims (key : Str) (mid : List Str) (line : Str)
  | pillars (key : Str) (lines : List Str) (stop : Str)
  | depths (key : Str) (lines : List Str) (stop : Str)
  | other (line : Str)
  deriving DecidableEq

/-- The lines of a piece. -/
def Piece.lines : Piece → List Str
  | .dims key mid line => key :: (mid ++ [line])
  | .pillars key ls stop => key :: (ls ++ [stop])
  | .depths key ls stop => key :: (ls ++ [stop])
  | .other l => [l]

/-- The piece gives the dimensions, the pillars, the depths or nothing. -/
def Piece.Gives (d : Nat × Nat × Nat) (ps : List (Pillar D)) (ds : List D) : Piece → Prop
  | .dims key mid line => startsWith key cs!"SPECGRID" = true ∧ 'F' ∉ key ∧ (∀ l ∈ mid, Plain l ∧ 'F' ∉ l) ∧ Plain line ∧ 'F' ∈ line ∧ ThreeNumbers line d
  | .pillars key ls stop => startsWith key cs!"COORD" = true ∧ (∀ l ∈ ls, Plain l) ∧ PillarLines ps ls ∧ IsEnd stop
  | .depths key ls stop => startsWith key cs!"ZCORN" = true ∧ (∀ l ∈ ls, Plain l) ∧ DepthLines ds ls ∧ IsEnd stop
  | .other l => Plain l

/-- What the piece is. -/
def Piece.isDims : Piece → Bool
  | .dims .. => true
  | _ => false
@[inherit_doc Piece.isDims] def Piece.isPillars : Piece → Bool
  | .pillars .. => true
  | _ => false
@[inherit_doc Piece.isDims] def Piece.isDepths : Piece → Bool
  | .depths .. => true
  | _ => false

/-- The file of the pieces. -/
def fileOf (is : List Piece) : File := is.flatMap Piece.lines

/-- The pieces make a grid: they all are about the same dimensions, pillars and depths, and none of the three is missing. -/
structure Grid (d : Nat × Nat × Nat) (ps : List (Pillar D)) (ds : List D) (is : List Piece) : Prop where
  gives : ∀ i ∈ is, i.Gives d ps ds
  dims : ∃ i ∈ is, i.isDims = true
  pillars : ∃ i ∈ is, i.isPillars = true
  depths : ∃ i ∈ is, i.isDepths = true

/-! ## Keywords of the lines -/

theorem startsWith_cons {a b : Char} {l k : Str} (h : startsWith (a :: l) (b :: k) = true) : a = b := by
  simp only [startsWith, List.isPrefixOf, Bool.and_eq_true, beq_iff_eq] at h
  exact h.1.symm

theorem other_first {l : Str} {a b : Char} {k k' : Str} (h : startsWith l (a :: k) = true) (hab : a ≠ b) : startsWith l (b :: k') = false := by
  cases hb : startsWith l (b :: k') with
  | false => rfl
  | true =>
    cases l with
    | nil => simp [startsWith] at h
    | cons c l => exact absurd ((startsWith_cons h).symm.trans (startsWith_cons hb)) hab

theorem end_plain {l : Str} (h : IsEnd l) : Plain l := by
  intro k hk
  simp only [List.mem_cons, List.not_mem_nil, or_false] at hk
  rcases hk with rfl | rfl | rfl | rfl <;> exact other_first h (by decide)

/-- Lines of a piece that start with a keyword of another kind of section: none. -/
theorem no_keyword {d : Nat × Nat × Nat} {ps : List (Pillar D)} {ds : List D} {i : Piece} (h : i.Gives d ps ds) :
    (i.isDims = false → ∀ l ∈ i.lines, startsWith l cs!"SPECGRID" = false) ∧ (i.isPillars = false → ∀ l ∈ i.lines, startsWith l cs!"COORD" = false) ∧
    (i.isDepths = false → ∀ l ∈ i.lines, startsWith l cs!"ZCORN" = false) ∧ ∀ l ∈ i.lines, startsWith l cs!"INCLUDE" = false := by
  cases i with
  | dims key mid line =>
    obtain ⟨h1, h2, h3, h4, h5, h6⟩ := h
    have hp : ∀ l ∈ mid ++ [line], Plain l := by
      intro l hl
      rcases List.mem_append.1 hl with hl | hl
      · exact (h3 l hl).1
      · rw [List.mem_singleton.1 hl]; exact h4
    refine ⟨fun e => absurd e (by simp [Piece.isDims]), fun _ l hl => ?_, fun _ l hl => ?_, fun l hl => ?_⟩ <;>
    · rcases List.mem_cons.1 hl with rfl | hl
      · exact other_first h1 (by decide)
      · exact hp l hl _ (by simp)
  | pillars key ls stop =>
    obtain ⟨h1, h2, _, h4⟩ := h
    have hp : ∀ l ∈ ls ++ [stop], Plain l := by
      intro l hl
      rcases List.mem_append.1 hl with hl | hl
      · exact h2 l hl
      · rw [List.mem_singleton.1 hl]; exact end_plain h4
    refine ⟨fun _ l hl => ?_, fun e => absurd e (by simp [Piece.isPillars]), fun _ l hl => ?_, fun l hl => ?_⟩ <;>
    · rcases List.mem_cons.1 hl with rfl | hl
      · exact other_first h1 (by decide)
      · exact hp l hl _ (by simp)
  | depths key ls stop =>
    obtain ⟨h1, h2, _, h4⟩ := h
    have hp : ∀ l ∈ ls ++ [stop], Plain l := by
      intro l hl
      rcases List.mem_append.1 hl with hl | hl
      · exact h2 l hl
      · rw [List.mem_singleton.1 hl]; exact end_plain h4
    refine ⟨fun _ l hl => ?_, fun _ l hl => ?_, fun e => absurd e (by simp [Piece.isDepths]), fun l hl => ?_⟩ <;>
    · rcases List.mem_cons.1 hl with rfl | hl
      · exact other_first h1 (by decide)
      · exact hp l hl _ (by simp)
  | other x =>
    refine ⟨fun _ l hl => ?_, fun _ l hl => ?_, fun _ l hl => ?_, fun l hl => ?_⟩ <;>
    · rw [List.mem_singleton.1 hl]; exact h _ (by simp)

theorem mem_fileOf {is : List Piece} {l : Str} : l ∈ fileOf is ↔ ∃ i ∈ is, l ∈ i.lines := List.mem_flatMap

theorem fileOf_append (a b : List Piece) : fileOf (a ++ b) = fileOf a ++ fileOf b := List.flatMap_append

theorem fileOf_cons (i : Piece) (b : List Piece) : fileOf (i :: b) = i.lines ++ fileOf b := rfl

/-- The first piece of a kind. -/
theorem first_piece {p : Piece → Bool} : ∀ {is : List Piece}, (∃ i ∈ is, p i = true) → ∃ pre i post, is = pre ++ i :: post ∧ (∀ j ∈ pre, p j = false) ∧ p i = true
  | [], h => by obtain ⟨_, h, _⟩ := h; cases h
  | i :: is, h => by
    cases hi : p i with
    | true => exact ⟨[], i, is, rfl, by simp, hi⟩
    | false =>
      obtain ⟨pre, j, post, rfl, h1, h2⟩ := first_piece (p := p) (is := is) (by
        obtain ⟨j, hj, hp⟩ := h
        rcases List.mem_cons.1 hj with rfl | hj
        · rw [hi] at hp; cases hp
        · exact ⟨j, hj, hp⟩)
      exact ⟨i :: pre, j, post, rfl, fun k hk => by rcases List.mem_cons.1 hk with rfl | hk; exacts [hi, h1 k hk], h2⟩

section
variable {d : Nat × Nat × Nat} {ps : List (Pillar D)} {ds : List D} {is : List Piece}

/-- The dimensions are found wherever they are. -/
theorem dims_found (hg : ∀ i ∈ is, i.Gives d ps ds) (hd : ∃ i ∈ is, i.isDims = true) : ∃ after, readDims (fileOf is) = .ok (d, after) := by
  obtain ⟨pre, i, post, rfl, h1, h2⟩ := first_piece hd
  cases i with
  | dims key mid line =>
    obtain ⟨g1, g2, g3, _, g5, g6⟩ := hg _ (List.mem_append_right _ List.mem_cons_self)
    refine ⟨fileOf post, ?_⟩
    rw [GrdeclRefused.dims_iff]
    refine ⟨key, mid ++ line :: fileOf post, key :: mid, line, ⟨fileOf pre, ?_, g1, ?_⟩, rfl, ?_, g5, g6⟩
    · rw [fileOf_append, fileOf_cons]
      simp [Piece.lines]
    · intro x hx
      obtain ⟨j, hj, hx⟩ := mem_fileOf.1 hx
      exact (no_keyword (hg j (List.mem_append_left _ hj))).1 (h1 j hj) x hx
    · intro x hx
      rcases List.mem_cons.1 hx with rfl | hx
      · exact g2
      · exact (g3 x hx).2
  | pillars => cases h2
  | depths => cases h2
  | other => cases h2

/-- The depths are found wherever they are. -/
theorem depths_found (hg : ∀ i ∈ is, i.Gives d ps ds) (nx ny nz : Nat) : (readDepths nx ny nz (fileOf is) : Res (List (Option D))) =
    if ∃ i ∈ is, i.isDepths = true then
      if ds.length ≤ 8 * nx * ny * nz % W then .ok (ds.map some ++ List.replicate (8 * nx * ny * nz % W - ds.length) none) else .ub
    else .throw := by
  split
  · rename_i hd
    obtain ⟨pre, i, post, rfl, h1, h2⟩ := first_piece hd
    cases i with
    | depths key ls stop =>
      obtain ⟨g1, _, g3, g4⟩ := hg _ (List.mem_append_right _ List.mem_cons_self)
      have hp : ∀ x ∈ fileOf pre, startsWith x cs!"ZCORN" = false := by
        intro x hx
        obtain ⟨j, hj, hx⟩ := mem_fileOf.1 hx
        exact (no_keyword (hg j (List.mem_append_left _ hj))).2.2.1 (h1 j hj) x hx
      unfold readDepths gotoKeyword
      rw [fileOf_append, fileOf_cons, Piece.lines, List.cons_append, gotoKeyword?_skip' hp g1]
      simp only [Res.ofParse_some, Res.ok_bind]
      rw [List.append_assoc, depthsLoop_lines _ g3 [] (Nat.zero_le _)]
      simp only [List.length_nil, Nat.zero_add, List.nil_append]
      by_cases h2 : ds.length ≤ 8 * nx * ny * nz % W
      · rw [if_pos h2, if_pos h2, List.cons_append, List.nil_append]
        unfold IsEnd at g4
        rw [depthsLoop, if_pos g4]
        rfl
      · rw [if_neg h2, if_neg h2]
        rfl
    | dims => cases h2
    | pillars => cases h2
    | other => cases h2
  · rename_i hd
    have : ∀ x ∈ fileOf is, startsWith x cs!"ZCORN" = false := by
      intro x hx
      obtain ⟨j, hj, hx⟩ := mem_fileOf.1 hx
      refine (no_keyword (hg j hj)).2.2.1 ?_ x hx
      cases hj' : j.isDepths with
      | false => rfl
      | true => exact absurd ⟨j, hj, hj'⟩ hd
    unfold readDepths
    have e := Gocad.gotoKeyword_skip this []
    rw [List.append_nil] at e
    rw [e]
    rfl

end

/-! ## C190: order of the sections -/

section
variable [Add D] [Sub D] [Mul D] [Div D] [One D]

/-- **C190**: pieces in another order make the same grid. -/
def OrderIrrelevant (D : Type) [Num D] [Add D] [Sub D] [Mul D] [Div D] [One D] : Prop :=
  ∀ (merge : List (Pt D) → List (Pt D) × List Nat) (fs : Str → Option File) (d : Nat × Nat × Nat) (ps : List (Pillar D)) (ds : List D) (is js : List Piece),
    Grid d ps ds is → js.Perm is → (load merge fs (fileOf js) : Res (Solid D)) = load merge fs (fileOf is)

/-- The outcome for pieces in any order, for any numbers of pillars and depths: the dimensions may be anywhere, the depths are those of a section after the
first section of pillars. -/
theorem load_pieces {merge : List (Pt D) → List (Pt D) × List Nat} {fs : Str → Option File} {nx ny nz : Nat} {ps : List (Pillar D)} {ds : List D}
    {pre post : List Piece} {i : Piece} (hg : ∀ j ∈ pre ++ i :: post, j.Gives (nx, ny, nz) ps ds) (hd : ∃ j ∈ pre ++ i :: post, j.isDims = true)
    (hi : i.isPillars = true) (hpre : ∀ j ∈ pre, j.isPillars = false) :
    (load merge fs (fileOf (pre ++ i :: post)) : Res (Solid D)) =
      if ps.length ≤ (nx + 1) * (ny + 1) % W then
        if ∃ j ∈ post, j.isDepths = true then
          if ds.length ≤ 8 * nx * ny * nz % W then
            createCells merge nx ny nz (ps ++ List.replicate ((nx + 1) * (ny + 1) % W - ps.length) Pillar.zero)
              (ds.map some ++ List.replicate (8 * nx * ny * nz % W - ds.length) none)
          else .ub
        else .throw
      else .ub := by
  have hinc : ∀ l ∈ fileOf (pre ++ i :: post) ++ [], startsWith l cs!"INCLUDE" = false := by
    intro l hl
    rw [List.append_nil] at hl
    obtain ⟨j, hj, hl⟩ := mem_fileOf.1 hl
    exact (no_keyword (hg j hj)).2.2.2 l hl
  have hs := load_start (merge := merge) (fs := fs) (D := D) (dims_found hg hd) hinc
  rw [List.append_nil] at hs
  rw [hs]
  cases i with
  | pillars key ls stop =>
    obtain ⟨g1, _, g3, g4⟩ := hg _ (List.mem_append_right _ List.mem_cons_self)
    have hp : ∀ x ∈ fileOf pre, startsWith x cs!"COORD" = false := by
      intro x hx
      obtain ⟨j, hj, hx⟩ := mem_fileOf.1 hx
      exact (no_keyword (hg j (List.mem_append_left _ hj))).2.1 (hpre j hj) x hx
    unfold readPillars gotoKeyword
    rw [fileOf_append, fileOf_cons, Piece.lines, List.cons_append, gotoKeyword?_skip' hp g1]
    simp only [Res.ofParse_some, Res.ok_bind]
    rw [List.append_assoc, pillarsLoop_lines _ g3 [] (Nat.zero_le _)]
    simp only [List.length_nil, Nat.zero_add, List.nil_append]
    by_cases h1 : ps.length ≤ (nx + 1) * (ny + 1) % W
    · rw [if_pos h1, if_pos h1, List.cons_append, List.nil_append, pillarsLoop_end _ _ g4]
      simp only [Res.ok_bind, Res.pure_eq]
      rw [depths_found (fun j hj => hg j (List.mem_append_right _ (List.mem_cons_of_mem _ hj)))]
      split
      · split <;> rfl
      · rfl
    · rw [if_neg h1, if_neg h1]
      rfl
  | dims => cases hi
  | depths => cases hi
  | other => cases hi

/-- The depths come after the pillars: the file has a section of depths after its first section of pillars. -/
def DepthsAfter (is : List Piece) : Prop := ∃ pre i post, is = pre ++ i :: post ∧ i.isPillars = true ∧ (∀ j ∈ pre, j.isPillars = false) ∧ ∃ j ∈ post, j.isDepths = true

/-- What holds of C190: the order does not matter as long as the depths come after the pillars.  The dimensions may be before, between or after them, and
other lines anywhere between the sections. The full statement is `OrderIrrelevant`. -/
theorem order_partial {merge : List (Pt D) → List (Pt D) × List Nat} {fs : Str → Option File} {d : Nat × Nat × Nat} {ps : List (Pillar D)} {ds : List D}
    {is js : List Piece} (hi : Grid d ps ds is) (hj : Grid d ps ds js) (di : DepthsAfter is) (dj : DepthsAfter js) :
    (load merge fs (fileOf js) : Res (Solid D)) = load merge fs (fileOf is) := by
  obtain ⟨pre, i, post, rfl, h1, h2, h3⟩ := di
  obtain ⟨pre', i', post', rfl, h1', h2', h3'⟩ := dj
  obtain ⟨nx, ny, nz⟩ := d
  rw [load_pieces hi.gives hi.dims h1 h2, load_pieces hj.gives hj.dims h1' h2', if_pos h3, if_pos h3']

/-- A file whose depths are all before its pillars is refused (or its pillars are too many). -/
theorem depths_first {merge : List (Pt D) → List (Pt D) × List Nat} {fs : Str → Option File} {nx ny nz : Nat} {ps : List (Pillar D)} {ds : List D}
    {is : List Piece} (h : Grid (nx, ny, nz) ps ds is) (hd : ¬ DepthsAfter is) :
    (load merge fs (fileOf is) : Res (Solid D)) = if ps.length ≤ (nx + 1) * (ny + 1) % W then .throw else .ub := by
  obtain ⟨pre, i, post, rfl, h1, h2⟩ := first_piece h.pillars
  rw [load_pieces h.gives h.dims h2 h1, if_neg fun h3 => hd ⟨pre, i, post, rfl, h2, h1, h3⟩]

/-! ## C192: the other lines -/

/-- **C192**: lines whose first word is not a keyword of the grid can be added without changing what is loaded. -/
def OthersIgnored (D : Type) [Num D] [Add D] [Sub D] [Mul D] [Div D] [One D] : Prop :=
  ∀ (merge : List (Pt D) → List (Pt D) × List Nat) (fs : Str → Option File) (d : Nat × Nat × Nat) (ps : List (Pillar D)) (ds : List D) (is js : List Piece) (ls : List Str),
    Grid d ps ds (is ++ js) → (∀ l ∈ ls, ∀ k ∈ [cs!"SPECGRID", cs!"COORD", cs!"ZCORN", cs!"INCLUDE"], (split l).head? ≠ some k) →
    (load merge fs (fileOf is ++ (ls ++ fileOf js)) : Res (Solid D)) = load merge fs (fileOf (is ++ js))

theorem gives_others {d : Nat × Nat × Nat} {ps : List (Pillar D)} {ds : List D} {is js : List Piece} {ls : List Str} (h : Grid d ps ds (is ++ js)) (hl : ∀ l ∈ ls, Plain l) :
    Grid d ps ds (is ++ (ls.map Piece.other ++ js)) := by
  have up : ∀ {p : Piece → Bool}, (∃ i ∈ is ++ js, p i = true) → ∃ i ∈ is ++ (ls.map Piece.other ++ js), p i = true := by
    rintro p ⟨i, hi, hp⟩
    refine ⟨i, ?_, hp⟩
    rcases List.mem_append.1 hi with hi | hi
    · exact List.mem_append_left _ hi
    · exact List.mem_append_right _ (List.mem_append_right _ hi)
  refine ⟨fun i hi => ?_, up h.dims, up h.pillars, up h.depths⟩
  rcases List.mem_append.1 hi with hi | hi
  · exact h.gives i (List.mem_append_left _ hi)
  · rcases List.mem_append.1 hi with hi | hi
    · obtain ⟨l, hl', rfl⟩ := List.mem_map.1 hi
      exact hl l hl'
    · exact h.gives i (List.mem_append_right _ hi)

/-- A list with lines of something else has its depths after its pillars as without them. -/
theorem after_others {is js : List Piece} {ls : List Str} (h : DepthsAfter (is ++ js)) : DepthsAfter (is ++ (ls.map Piece.other ++ js)) := by
  obtain ⟨pre, i, post, e, h1, h2, j, h3, h4⟩ := h
  rcases List.append_eq_append_iff.1 e with ⟨a, rfl, rfl⟩ | ⟨c, rfl, e2⟩
  · refine ⟨is ++ (ls.map Piece.other ++ a), i, post, by simp, h1, ?_, j, h3, h4⟩
    intro k hk
    simp only [List.mem_append, List.mem_map] at hk
    rcases hk with hk | ⟨l, _, rfl⟩ | hk
    · exact h2 k (by simp [hk])
    · rfl
    · exact h2 k (by simp [hk])
  · cases c with
    | nil =>
      simp only [List.nil_append] at e2
      subst e2
      refine ⟨pre ++ ls.map Piece.other, i, post, by simp, h1, ?_, j, h3, h4⟩
      intro k hk
      rcases List.mem_append.1 hk with hk | hk
      · exact h2 k hk
      · obtain ⟨l, _, rfl⟩ := List.mem_map.1 hk
        rfl
    | cons c cs =>
      rw [List.cons_append, List.cons.injEq] at e2
      obtain ⟨rfl, rfl⟩ := e2
      refine ⟨pre, i, cs ++ (ls.map Piece.other ++ js), by simp, h1, h2, j, ?_, h4⟩
      rcases List.mem_append.1 h3 with h3 | h3
      · exact List.mem_append_left _ h3
      · exact List.mem_append_right _ (List.mem_append_right _ h3)

/-- What holds of C192: lines that do not start with the letters of a keyword are ignored. The full statement is `OthersIgnored`. -/
theorem others_partial {merge : List (Pt D) → List (Pt D) × List Nat} {fs : Str → Option File} {d : Nat × Nat × Nat} {ps : List (Pillar D)} {ds : List D}
    {is js : List Piece} {ls : List Str} (h : Grid d ps ds (is ++ js)) (ha : DepthsAfter (is ++ js)) (hl : ∀ l ∈ ls, Plain l) :
    (load merge fs (fileOf is ++ (ls ++ fileOf js)) : Res (Solid D)) = load merge fs (fileOf (is ++ js)) := by
  have e : fileOf is ++ (ls ++ fileOf js) = fileOf (is ++ (ls.map Piece.other ++ js)) := by
    rw [fileOf_append, fileOf_append]
    have : fileOf (ls.map Piece.other) = ls := by
      unfold fileOf
      rw [List.flatMap_map]
      simp [Piece.lines]
    rw [this]
  rw [e]
  exact order_partial h (gives_others h hl) ha (after_others ha)

/-- A section of which the name only starts with `COORD`, like `COORDSYS`, is read as the pillars: with a number of values that is neither three nor six, the
file is refused, whatever follows. -/
theorem longer_keyword_refused {merge : List (Pt D) → List (Pt D) × List Nat} {fs : Str → Option File} {f pre post : File} {key line : Str} {d : Nat × Nat × Nat} {after : File}
    (hf : f = pre ++ key :: line :: post) (hd : readDims f = .ok (d, after)) (hinc : ∀ l ∈ f, startsWith l cs!"INCLUDE" = false) (hp : ∀ l ∈ pre, startsWith l cs!"COORD" = false)
    (hk : startsWith key cs!"COORD" = true) (hl : ¬ IsEnd line) (h0 : split line ≠ []) (h3 : (split line).length ≠ 3) (h6 : (split line).length ≠ 6) :
    (load merge fs f : Res (Solid D)) = .throw := by
  obtain ⟨nx, ny, nz⟩ := d
  have hs := load_start (merge := merge) (fs := fs) (D := D) (rest := []) ⟨after, hd⟩ (by simpa using hinc)
  rw [List.append_nil] at hs
  rw [hs, hf]
  unfold readPillars gotoKeyword
  rw [gotoKeyword?_skip' hp hk]
  simp only [Res.ofParse_some, Res.ok_bind]
  unfold IsEnd at hl
  have he : (split line).isEmpty = false := by
    cases hs : split line with
    | nil => exact absurd hs h0
    | cons => rfl
  rw [pillarsLoop, if_neg hl]
  simp only [he, h3, h6]
  rfl

end

/-! ## C191: notations of the values -/

/-- The words of a line: numbers, alone or repeated as in `3*1250.5`; none has a slash. -/
inductive Written : List Str → List D → Prop
  | nil : Written [] []
  | one {w ws v vs} : Num.parse w = some v → '/' ∉ w → Written ws vs → Written (w :: ws) (v :: vs)
  | many {n w ws k v vs} : parseIndex n = some k → Num.parse w = some v → '/' ∉ n → '/' ∉ w → Written ws vs →
      Written ((n ++ '*' :: w) :: ws) (List.replicate k v ++ vs)

/-- A comment: the first word starts with two dashes. -/
def IsNote (l : Str) : Prop := ∃ t ts, split l = t :: ts ∧ startsWith t cs!"--" = true

/-- The lines of a section, with lines of comment, up to a word that starts with a slash, alone or after values. -/
inductive Notation : List D → List Str → Prop
  | stop {l ws j more vs} : split l = ws ++ ('/' :: j) :: more → Written ws vs → Notation vs [l]
  | note {l ls vs} : IsNote l → Notation vs ls → Notation vs (l :: ls)
  | line {l ls vs vs'} : Written (split l) vs → Notation vs' ls → Notation (vs ++ vs') (l :: ls)

/-- **C191**: the depths are read however they are written. -/
def NotationRead (D : Type) [Num D] : Prop := ∀ (nx ny nz : Nat) (ds : List D) (ls : List Str) (rest : File), Notation ds ls → 8 * nx * ny * nz < W →
  ds.length = 8 * nx * ny * nz → (readDepths nx ny nz (cs!"ZCORN" :: (ls ++ rest)) : Res (List (Option D))) = .ok (ds.map some)

/-- Only numbers, and a slash at the beginning of a line. -/
def Simple (ls : List Str) : Prop := ∀ l ∈ ls, IsEnd l ∨ ∀ w ∈ split l, '*' ∉ w ∧ '/' ∉ w ∧ startsWith w cs!"--" = false

/-- Words with a star, with a slash or with two dashes in front are not numbers. -/
def Strict (D : Type) [Num D] : Prop := ∀ w : Str, '*' ∈ w ∨ '/' ∈ w ∨ startsWith w cs!"--" = true → (Num.parse w : Option D) = none

theorem strict_some (h : Strict D) {w : Str} {v : D} (hw : Num.parse w = some v) : '*' ∉ w ∧ '/' ∉ w ∧ startsWith w cs!"--" = false := by
  have : ¬ ('*' ∈ w ∨ '/' ∈ w ∨ startsWith w cs!"--" = true) := fun hb => by rw [h w hb] at hw; cases hw
  simp only [not_or, Bool.not_eq_true] at this
  exact this

open Classical in
/-- Values of a line, then other words. -/
theorem tokens_written (h : Strict D) (size : Nat) {ws : List Str} {vs : List D} (hw : Written ws vs) (acc : List D) (hacc : acc.length + vs.length ≤ size) (more : List Str) :
    depthTokens size acc (ws ++ more) = if ∀ w ∈ ws, '*' ∉ w then depthTokens size (acc ++ vs) more else .throw := by
  induction hw generalizing acc with
  | nil => simp
  | @one w ws v vs h1 h2 _ ih =>
    rw [List.length_cons] at hacc
    rw [List.cons_append, depthTokens, readDouble, h1, Res.ofParse_some, Res.ok_bind, if_pos (by omega), ih (acc ++ [v]) (by simp; omega)]
    simp only [List.append_assoc, List.cons_append, List.nil_append, List.forall_mem_cons, (strict_some h h1).1, not_false_eq_true, true_and]
  | @many n w ws k v vs h1 h2 h3 h4 _ ih =>
    rw [List.cons_append, depthTokens, readDouble, h _ (Or.inl (by simp)), if_neg (fun hn => hn _ List.mem_cons_self (by simp))]
    rfl

theorem written_noslash {ws : List Str} {vs : List D} (hw : Written ws vs) : ∀ w ∈ ws, '/' ∉ w := by
  induction hw with
  | nil => simp
  | one _ h _ ih => intro w hw; rcases List.mem_cons.1 hw with rfl | hw; exacts [h, ih w hw]
  | many _ _ h h' _ ih =>
    intro w hw
    rcases List.mem_cons.1 hw with rfl | hw
    · simp [h, h']
    · exact ih w hw

/-- Words of values that have no star are numbers. -/
theorem written_dashes (h : Strict D) {ws : List Str} {vs : List D} (hw : Written ws vs) (hs : ∀ w ∈ ws, '*' ∉ w) : ∀ w ∈ ws, startsWith w cs!"--" = false := by
  induction hw with
  | nil => simp
  | one h1 _ _ ih =>
    intro w hw
    rcases List.mem_cons.1 hw with rfl | hw
    · exact (strict_some h h1).2.2
    · exact ih (fun w hw => hs w (List.mem_cons_of_mem _ hw)) w hw
  | many => exact absurd (by simp) (hs _ List.mem_cons_self)

/-- A line that starts with a slash has such a first word. -/
theorem end_word {l : Str} (h : IsEnd l) : ∃ j ts, split l = ('/' :: j) :: ts := by
  cases l with
  | nil => simp [IsEnd, startsWith] at h
  | cons c s =>
    obtain rfl : c = '/' := startsWith_cons h
    cases hs : split ('/' :: s) with
    | nil => exact absurd hs (split_ne_nil (by decide) s)
    | cons t ts =>
      cases s with
      | nil => rw [split_single (by decide)] at hs; exact ⟨[], [], (List.cons.inj hs).1 ▸ (List.cons.inj hs).2 ▸ rfl⟩
      | cons e s =>
        cases he : isWs e with
        | true =>
          rw [split_cons_then_ws (by decide) he] at hs
          exact ⟨[], ts, by rw [← (List.cons.inj hs).1]⟩
        | false =>
          obtain ⟨u, us, _, e2⟩ := split_cons_cons (c := '/') (by decide) he s
          exact ⟨u, us, by rw [← hs, e2]⟩

theorem note_not_end {l : Str} (h : IsNote l) : ¬ IsEnd l := by
  intro he
  obtain ⟨t, ts, h1, h2⟩ := h
  obtain ⟨j, us, h3⟩ := end_word he
  rw [h1, List.cons.injEq] at h3
  rw [h3.1] at h2
  exact absurd (startsWith_cons h2) (by decide)

theorem written_not_end {l : Str} {vs : List D} (h : Written (split l) vs) : ¬ IsEnd l := by
  intro he
  obtain ⟨j, us, h3⟩ := end_word he
  rw [h3] at h
  exact written_noslash h _ List.mem_cons_self List.mem_cons_self

open Classical in
theorem loop_notation (h : Strict D) (size : Nat) {ls : List Str} {vs : List D} (hn : Notation vs ls) (acc : List D) (hacc : acc.length + vs.length ≤ size) (rest : File) :
    depthsLoop size acc (ls ++ rest) = if Simple ls then .ok (acc ++ vs, rest) else .throw := by
  induction hn generalizing acc with
  | @stop l ws j more vs hs hw =>
    by_cases he : IsEnd l
    · have hS : Simple [l] := fun x hx => Or.inl (by rw [List.mem_singleton.1 hx]; exact he)
      rw [if_pos hS]
      obtain ⟨j', us, h3⟩ := end_word he
      rw [h3] at hs
      cases hw with
      | nil =>
        unfold IsEnd at he
        rw [List.cons_append, List.nil_append, depthsLoop, if_pos he, List.append_nil]
      | one _ hsl _ => exact absurd (by rw [← (List.cons.inj hs).1]; simp) hsl
      | many _ _ hs1 hs2 _ =>
        have : '/' ∈ ('/' :: j') := by simp
        rw [(List.cons.inj hs).1] at this
        simp [hs1, hs2] at this
    · have hS : ¬ Simple [l] := by
        intro hS
        rcases hS l (by simp) with h1 | h1
        · exact he h1
        · exact (h1 ('/' :: j) (by rw [hs]; simp)).2.1 (by simp)
      rw [if_neg hS, List.cons_append, List.nil_append, depthsLoop]
      unfold IsEnd at he
      rw [if_neg he, hs, tokens_written h size hw acc hacc]
      split
      · rw [depthTokens, readDouble, h _ (Or.inr (Or.inl (by simp)))]
        rfl
      · rfl
  | @note l ls vs hl _ _ =>
    have hS : ¬ Simple (l :: ls) := by
      intro hS
      obtain ⟨t, ts, h1, h2⟩ := hl
      rcases hS l (by simp) with h3 | h3
      · exact note_not_end ⟨t, ts, h1, h2⟩ h3
      · have := (h3 t (by rw [h1]; simp)).2.2
        rw [h2] at this
        cases this
    have he := note_not_end hl
    obtain ⟨t, ts, h1, h2⟩ := hl
    unfold IsEnd at he
    rw [if_neg hS, List.cons_append, depthsLoop, if_neg he, h1, depthTokens, readDouble, h t (Or.inr (Or.inr h2))]
    rfl
  | @line l ls vs vs' hw _ ih =>
    have he := written_not_end hw
    rw [List.length_append] at hacc
    have ht := tokens_written h size hw acc (by omega) []
    rw [List.append_nil] at ht
    have he' := he
    unfold IsEnd at he'
    rw [List.cons_append, depthsLoop, if_neg he', ht]
    by_cases hst : ∀ w ∈ split l, '*' ∉ w
    · rw [if_pos hst, depthTokens, Res.ok_bind, ih (acc ++ vs) (by rw [List.length_append]; omega), List.append_assoc]
      have : Simple (l :: ls) ↔ Simple ls := by
        constructor
        · exact fun hS x hx => hS x (List.mem_cons_of_mem _ hx)
        · intro hS x hx
          rcases List.mem_cons.1 hx with rfl | hx
          · exact Or.inr fun w hw' => ⟨hst w hw', written_noslash hw w hw', written_dashes h hw hst w hw'⟩
          · exact hS x hx
      simp only [this]
    · have hS : ¬ Simple (l :: ls) := by
        intro hS
        rcases hS l (by simp) with h3 | h3
        · exact he h3
        · exact hst fun w hw' => (h3 w hw').1
      rw [if_neg hst, if_neg hS]
      rfl

open Classical in
/-- **C191, what is read exactly**: the depths of a section that has only numbers and a slash at the beginning of a line are read; all the other notations, with
repetitions, comments, or a slash after values or blanks, are refused.  None is misread. The full statement is `NotationRead`. -/
theorem notation_partial (h : Strict D) {nx ny nz : Nat} {ds : List D} {ls : List Str} {rest : File} (hn : Notation ds ls) (hW : 8 * nx * ny * nz < W)
    (hc : ds.length = 8 * nx * ny * nz) :
    (readDepths nx ny nz (cs!"ZCORN" :: (ls ++ rest)) : Res (List (Option D))) = if Simple ls then .ok (ds.map some) else .throw := by
  unfold readDepths gotoKeyword
  rw [gotoKeyword?, if_pos (by decide), Nat.mod_eq_of_lt hW]
  simp only [Res.ofParse_some, Res.ok_bind]
  rw [loop_notation h _ hn [] (by simp [hc])]
  split
  · simp [hc]
  · rfl

/-- Pillars with a number of words that is neither three nor six on a line, as with a slash after the values, are refused. -/
theorem pillars_notation {nx ny : Nat} {pre : List Str} {ps : List (Pillar D)} {line : Str} {rest : File} (hp : PillarLines ps pre)
    (hps : ps.length ≤ (nx + 1) * (ny + 1) % W) (hl : ¬ IsEnd line) (h0 : split line ≠ []) (h3 : (split line).length ≠ 3) (h6 : (split line).length ≠ 6) :
    (readPillars nx ny (cs!"COORD" :: (pre ++ line :: rest)) : Res (List (Pillar D) × File)) = .throw := by
  unfold readPillars gotoKeyword
  rw [gotoKeyword?, if_pos (by decide)]
  simp only [Res.ofParse_some, Res.ok_bind]
  rw [pillarsLoop_lines _ hp [] (Nat.zero_le _), if_pos (by simpa using hps)]
  unfold IsEnd at hl
  have he : (split line).isEmpty = false := by
    cases hs : split line with
    | nil => exact absurd hs h0
    | cons => rfl
  rw [pillarsLoop, if_neg hl]
  simp only [he, h3, h6]
  rfl

/-! ## Examples -/

theorem digits_bad {w : Str} {c : Char} (hc : digitVal c = none) (h : c ∈ w) (n : Nat) : digitsVal n w = none := by
  induction w generalizing n with
  | nil => cases h
  | cons a w ih =>
    rw [digitsVal]
    cases ha : digitVal a with
    | none => rfl
    | some x =>
      rcases List.mem_cons.1 h with rfl | h
      · rw [hc] at ha; cases ha
      · exact ih h _

theorem parseNat_bad {w : Str} {c : Char} (hc : digitVal c = none) (h : c ∈ w) : parseNat w = none := by
  cases w with
  | nil => cases h
  | cons a w => exact digits_bad hc h 0

/-- The integers of the examples are read strictly. -/
theorem strict_int : Strict Int := by
  have key : ∀ {w : Str} {c : Char}, digitVal c = none → c ≠ '-' → c ∈ w → parseZ w = none := by
    intro w c hc hne h
    cases w with
    | nil => cases h
    | cons a w =>
      rw [parseZ]
      split
      · rename_i ha
        rcases List.mem_cons.1 h with rfl | h
        · exact absurd ha hne
        · rw [parseNat_bad hc h]; rfl
      · rw [parseNat_bad hc h]; rfl
  rintro w (h | h | h)
  · exact key (by decide) (by decide) h
  · exact key (by decide) (by decide) h
  · change parseZ w = none
    match w, h with
    | a :: b :: w, h =>
      simp only [startsWith, List.isPrefixOf, Bool.and_eq_true, beq_iff_eq] at h
      obtain ⟨rfl, rfl, _⟩ := h
      rw [parseZ, if_pos rfl, parseNat_bad (c := '-') (by decide) List.mem_cons_self]
      rfl
    | [a], h => simp [startsWith, List.isPrefixOf] at h
    | [], h => simp [startsWith, List.isPrefixOf] at h

/-- A comment, repeated values and a slash after the last value. -/
def usual : List Str := [cs!"-- tops", cs!"4*0 9", cs!"3*9 /"]

theorem usual_notation : Notation ([0, 0, 0, 0, 9, 9, 9, 9] : List Int) usual := by
  refine .note ⟨cs!"--", [cs!"tops"], by decide +kernel, by decide⟩ (.line (vs := [0, 0, 0, 0, 9]) (vs' := [9, 9, 9]) ?_ (.stop (ws := [cs!"3*9"]) (j := []) (more := [])
    (by decide +kernel) ?_))
  · have e : split cs!"4*0 9" = [cs!"4" ++ '*' :: cs!"0", cs!"9"] := by decide +kernel
    rw [e]
    exact .many (k := 4) (v := 0) (by decide +kernel) (by decide +kernel) (by decide) (by decide) (.one (by decide +kernel) (by decide) .nil)
  · exact .many (n := cs!"3") (w := cs!"9") (k := 3) (v := 9) (vs := []) (by decide +kernel) (by decide +kernel) (by decide) (by decide) .nil

/-- The same values as the reader takes them. -/
def simple : List Str := [cs!"0 0 0 0 9", cs!"", cs!"9 9 9", cs!"/ end"]

theorem simple_notation : Notation ([0, 0, 0, 0, 9, 9, 9, 9] : List Int) simple := by
  refine .line (vs := [0, 0, 0, 0, 9]) (vs' := [9, 9, 9]) ?_ (.line (vs := []) (vs' := [9, 9, 9]) .nil (.line (vs := [9, 9, 9]) (vs' := []) ?_ (.stop (ws := []) (j := []) (more := [cs!"end"])
    (by decide +kernel) .nil)))
  · have e : split cs!"0 0 0 0 9" = [cs!"0", cs!"0", cs!"0", cs!"0", cs!"9"] := by decide +kernel
    rw [e]
    repeat (first | exact .nil | refine .one (by decide +kernel) (by decide) ?_)
  · have e : split cs!"9 9 9" = [cs!"9", cs!"9", cs!"9"] := by decide +kernel
    rw [e]
    repeat (first | exact .nil | refine .one (by decide +kernel) (by decide) ?_)

theorem simple_simple : Simple simple := by
  intro l hl
  unfold IsEnd
  revert l
  decide +kernel

/-- Both are about one cell, and only the second one is read. -/
example : (readDepths 1 1 1 (cs!"ZCORN" :: (simple ++ [])) : Res (List (Option Int))) = .ok ([0, 0, 0, 0, 9, 9, 9, 9].map some) := by
  classical
  rw [notation_partial strict_int simple_notation (by decide) rfl, if_pos simple_simple]

/-- **C191 fails**: the usual way to write the values is refused. -/
theorem notation_fails : ¬ NotationRead Int ∧ (readDepths 1 1 1 (cs!"ZCORN" :: usual) : Res (List (Option Int))) = .throw := by
  have e : (readDepths 1 1 1 (cs!"ZCORN" :: usual) : Res (List (Option Int))) = .throw := by decide +kernel
  refine ⟨fun h => ?_, e⟩
  have := h 1 1 1 _ usual [] usual_notation (by decide) rfl
  rw [List.append_nil, e] at this
  cases this

/-- The sections of the example. -/
def dims1 : Piece := .dims cs!"SPECGRID" [cs!"-- cells"] cs!"1 1 1 1 F /"
@[inherit_doc dims1] def coord1 : Piece := .pillars cs!"COORD" parts1.pillars cs!"/"
@[inherit_doc dims1] def zcorn1 : Piece := .depths cs!"ZCORN" parts1.depths cs!"/"

theorem gives1 : ∀ i ∈ [dims1, coord1, zcorn1, .other cs!"PINCH"], i.Gives (1, 1, 1) pillars1 [1, 1, 1, 1, 2, 2, 2, 2] := by
  intro i hi
  simp only [List.mem_cons, List.not_mem_nil, or_false] at hi
  rcases hi with rfl | rfl | rfl | rfl
  · refine ⟨by decide, by decide, ?_, by unfold Plain; decide, by decide, cs!"1", cs!"1", cs!"1", [cs!"1", cs!"F", cs!"/"], by decide +kernel, by decide +kernel, by decide +kernel,
      by decide +kernel⟩
    unfold Plain
    decide
  · exact ⟨by decide, by unfold Plain; decide +kernel, parts1_pillars, by unfold IsEnd; decide⟩
  · exact ⟨by decide, by unfold Plain; decide +kernel, parts1_good.depths, by unfold IsEnd; decide⟩
  · unfold Piece.Gives Plain; decide

theorem grid1 {is : List Piece} (h : is.Perm [dims1, coord1, zcorn1, .other cs!"PINCH"]) : Grid (1, 1, 1) pillars1 [1, 1, 1, 1, 2, 2, 2, 2] is :=
  ⟨fun i hi => gives1 i (h.subset hi), ⟨dims1, h.symm.subset (by simp), rfl⟩, ⟨coord1, h.symm.subset (by simp), rfl⟩, ⟨zcorn1, h.symm.subset (by simp), rfl⟩⟩

/-- The dimensions at the end of the file: loaded as at its beginning. -/
example {merge : List (Pt Int) → List (Pt Int) × List Nat} {fs : Str → Option File} :
    (load merge fs (fileOf [coord1, .other cs!"PINCH", zcorn1, dims1]) : Res (Solid Int)) = load merge fs (fileOf [dims1, coord1, zcorn1, .other cs!"PINCH"]) :=
  order_partial (grid1 (List.Perm.refl _)) (grid1 (by decide +kernel))
    ⟨[dims1], coord1, [zcorn1, .other cs!"PINCH"], rfl, rfl, by simp [dims1, Piece.isPillars], zcorn1, by simp, rfl⟩
    ⟨[], coord1, [.other cs!"PINCH", zcorn1, dims1], rfl, rfl, by simp, zcorn1, by simp, rfl⟩

open Verif.Props.GrdeclRefused (keep)

/-- The pillars at the end. -/
def last : List Piece := [dims1, zcorn1, .other cs!"PINCH", coord1]

/-- **C190 fails**: a grid is loaded, and refused when its depths are before its pillars. -/
theorem order_matters : ¬ OrderIrrelevant Int ∧ (load keep (fun _ => none) (fileOf last) : Res (Solid Int)) = .throw ∧
    ∃ s, (load keep (fun _ => none) (fileOf [dims1, coord1, zcorn1, .other cs!"PINCH"]) : Res (Solid Int)) = .ok s := by
  have e : (load keep (fun _ => none) (fileOf last) : Res (Solid Int)) = .throw := by decide +kernel
  have hg : ∃ s, (load keep (fun _ => none) (fileOf [dims1, coord1, zcorn1, .other cs!"PINCH"]) : Res (Solid Int)) = .ok s := by
    cases h : (load keep (fun _ => none) (fileOf [dims1, coord1, zcorn1, .other cs!"PINCH"]) : Res (Solid Int)) with
    | ok s => exact ⟨s, rfl⟩
    | throw => exact absurd h (by decide +kernel)
    | ub => exact absurd h (by decide +kernel)
    | diverge => exact absurd h (by decide +kernel)
  refine ⟨fun h => ?_, e, hg⟩
  have := h keep (fun _ => none) _ _ _ [dims1, coord1, zcorn1, .other cs!"PINCH"] last (grid1 (List.Perm.refl _)) (by decide +kernel)
  obtain ⟨s, hs⟩ := hg
  rw [e, hs] at this
  cases this

/-- **C192 fails**: a section `COORDSYS`, which is about something else, makes the grid refused. -/
theorem others_matter : ¬ OthersIgnored Int ∧
    (load keep (fun _ => none) (fileOf [dims1] ++ ([cs!"COORDSYS", cs!"1 1 INCOMP /"] ++ fileOf [coord1, zcorn1, .other cs!"PINCH"])) : Res (Solid Int)) = .throw := by
  have e : (load keep (fun _ => none) (fileOf [dims1] ++ ([cs!"COORDSYS", cs!"1 1 INCOMP /"] ++ fileOf [coord1, zcorn1, .other cs!"PINCH"])) : Res (Solid Int)) = .throw := by
    decide +kernel
  refine ⟨fun h => ?_, e⟩
  have := h keep (fun _ => none) _ _ _ [dims1] [coord1, zcorn1, .other cs!"PINCH"] [cs!"COORDSYS", cs!"1 1 INCOMP /"] (grid1 (List.Perm.refl _)) (by decide +kernel)
  rw [e] at this
  obtain ⟨s, hs⟩ := order_matters.2.2
  exact nomatch this.trans hs

/-- A section `PERMX` between the others changes nothing. -/
example : (load keep (fun _ => none) (fileOf [dims1] ++ ([cs!"PERMX", cs!"100 /"] ++ fileOf [coord1, zcorn1, .other cs!"PINCH"])) : Res (Solid Int)) =
    load keep (fun _ => none) (fileOf [dims1, coord1, zcorn1, .other cs!"PINCH"]) :=
  others_partial (is := [dims1]) (grid1 (List.Perm.refl _)) ⟨[dims1], coord1, [zcorn1, .other cs!"PINCH"], rfl, rfl, by simp [dims1, Piece.isPillars], zcorn1, by simp, rfl⟩
    (by unfold Plain; decide +kernel)

/-- The refusal of a section `COORDSYS` does not depend on what follows. -/
example (post : File) (h : ∀ l ∈ post, startsWith l cs!"INCLUDE" = false) :
    (load keep (fun _ => none) (fileOf [dims1] ++ cs!"COORDSYS" :: cs!"1 1 INCOMP /" :: post) : Res (Solid Int)) = .throw := by
  have hd : readDims (fileOf [dims1]) = .ok ((1, 1, 1), []) := by decide +kernel
  have hi : ∀ l ∈ fileOf [dims1] ++ [cs!"COORDSYS", cs!"1 1 INCOMP /"], startsWith l cs!"INCLUDE" = false := by decide +kernel
  refine longer_keyword_refused (line := cs!"1 1 INCOMP /") rfl (readDims_append hd _) ?_ (by decide +kernel) (by decide) (by unfold IsEnd; decide) (by decide +kernel) (by decide +kernel) (by decide +kernel)
  intro l hl
  simp only [List.mem_append, List.mem_cons] at hl hi
  rcases hl with hl | hl | hl | hl
  · exact hi l (.inl hl)
  · exact hi l (.inr (.inl hl))
  · exact hi l (.inr (.inr (.inl hl)))
  · exact h l hl

/-- A slash after the six numbers of a pillar. -/
example : (readPillars 1 1 [cs!"COORD", cs!"0 0 0 0 0 9", cs!"1 0 0 1 0 9 /"] : Res (List (Pillar Int) × File)) = .throw :=
  pillars_notation (pre := [cs!"0 0 0 0 0 9"]) (ps := [⟨⟨0, 0, 0⟩, ⟨0, 0, 9⟩⟩]) (line := cs!"1 0 0 1 0 9 /") (rest := [])
    (.one (a := cs!"0") (b := cs!"0") (c := cs!"0") (d := cs!"0") (e := cs!"0") (f := cs!"9") ⟨by decide, by decide⟩ (by decide +kernel)
      ⟨_, _, _, _, rfl, by decide +kernel⟩ ⟨_, _, _, _, rfl, by decide +kernel⟩ .nil)
    (by decide) (by unfold IsEnd; decide) (by decide +kernel) (by decide +kernel) (by decide +kernel)

end Verif.Props.GrdeclOrder
