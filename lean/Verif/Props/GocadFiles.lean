import Verif.Props.LsoIndicators
import Verif.Props.SurfaceOutcomes
import Verif.Props.TSurf

/-!
# C160, C161: files one after the other, and objects without one of their sections

What the loaders of `.pl`, `.vs` and `.ts` files make of two files put one after the other, and of an object that lacks one of its sections.  Theorems about
`Model.Gocad` and `Model.GocadMesh`.
-/

namespace Verif.Props.GocadFiles

open Verif Verif.Gocad Verif.GocadMesh Verif.Props.WlOutcomes Verif.Props.LsoIndicators Res

variable {D : Type} [Num D]

/-! ## Lines added at the end -/

theorem first_append {kw : Str} {f : File} {l : Str} {rest : File} (h : First kw f l rest) (g : File) : First kw (f ++ g) l (rest ++ g) := by
  obtain ⟨pre, rfl, h1, h2⟩ := h
  exact ⟨pre, by simp, h1, h2⟩

theorem first_ne {kw : Str} {f : File} {l : Str} {rest : File} (h : First kw f l rest) : f ≠ [] := by
  obtain ⟨pre, rfl, -, -⟩ := h
  simp

theorem first_skip {kw : Str} {f g : File} {l : Str} {rest : File} (h : First kw g l rest) (hf : ∀ x ∈ f, startsWith x kw = false) : First kw (f ++ g) l rest := by
  obtain ⟨pre, rfl, h1, h2⟩ := h
  refine ⟨f ++ pre, by simp, h1, ?_⟩
  intro x hx
  rcases List.mem_append.1 hx with hx | hx
  · exact hf x hx
  · exact h2 x hx

theorem local_append {α : Type} {R : File → Res (α × File)} (hR : Local R) {f : File} {a : α} {rest : File} (h : R f = .ok (a, rest)) (hne : rest ≠ []) (g : File) :
    R (f ++ g) = .ok (a, rest ++ g) := by
  obtain ⟨u, rfl, hu⟩ := hR _ _ _ h
  rw [List.append_assoc]
  refine hu _ ?_
  cases rest with
  | nil => exact absurd rfl hne
  | cons x xs => rfl

theorem local_ne {α : Type} {R : File → Res (α × File)} (hR : Local R) {f : File} {a : α} {rest : File} (h : R f = .ok (a, rest)) (hne : rest ≠ []) : f ≠ [] := by
  obtain ⟨u, rfl, -⟩ := hR _ _ _ h
  simp [hne]

theorem local_suffix {α : Type} {R : File → Res (α × File)} (hR : Local R) {f : File} {a : α} {rest : File} (h : R f = .ok (a, rest)) : rest <:+ f := by
  obtain ⟨u, rfl, -⟩ := hR _ _ _ h
  exact List.suffix_append _ _

theorem first_suffix {kw : Str} {f : File} {l : Str} {rest : File} (h : First kw f l rest) : l :: rest <:+ f := by
  obtain ⟨pre, rfl, -, -⟩ := h
  exact List.suffix_append _ _

theorem until_append {f body rest : File} (h : CurveOutcomes.Until f body rest) (g : File) : CurveOutcomes.Until (f ++ g) body (rest ++ g) := by
  obtain ⟨h1, e, rfl, h2⟩ := h
  exact ⟨h1, e, by simp, h2⟩

/-- The file ends with a line `END`. -/
def Closed (f : File) : Prop := ∃ u e, f = u ++ [e] ∧ CurveOutcomes.isEnd e = true

theorem closed_suffix {f g : File} (h : Closed f) (hs : g <:+ f) (hne : g ≠ []) : Closed g := by
  obtain ⟨u, e, rfl, he⟩ := h
  obtain ⟨t, ht⟩ := hs
  rcases List.eq_nil_or_concat g with rfl | ⟨v, x, rfl⟩
  · exact absurd rfl hne
  · rw [List.concat_eq_append, ← List.append_assoc] at ht
    obtain ⟨-, h2⟩ := List.append_inj' ht rfl
    rw [List.concat_eq_append, h2]
    exact ⟨v, e, rfl, he⟩

theorem split_first {c : Char} (h : isWs c = false) (s : Str) : ∃ t ts, split (c :: s) = (c :: t) :: ts := by
  unfold split
  rw [if_neg (by simp [h])]
  cases s with
  | nil => exact ⟨[], [], rfl⟩
  | cons d s =>
    dsimp only
    split
    · exact ⟨[], _, rfl⟩
    · split
      · exact ⟨[], [], rfl⟩
      · exact ⟨_, _, rfl⟩

theorem iline_not_end {l : Str} (h : startsWith l cs!"ILINE" = true) : CurveOutcomes.isEnd l = false := by
  unfold startsWith at h
  obtain ⟨t, rfl⟩ := List.isPrefixOf_iff_prefix.1 h
  obtain ⟨w, ws, hs⟩ := split_first (c := 'I') (by decide) (cs!"LINE" ++ t)
  unfold CurveOutcomes.isEnd CurveOutcomes.key
  rw [show cs!"ILINE" ++ t = 'I' :: (cs!"LINE" ++ t) from rfl, hs]
  simp

theorem untilEnd_append {l : Str} {f body rest : File} (hl : startsWith l cs!"ILINE" = true) (h : CurveOutcomes.UntilEnd f body rest) (hc : Closed (l :: f)) (g : File) :
    CurveOutcomes.UntilEnd (f ++ g) body (rest ++ g) ∧ rest <:+ f := by
  obtain ⟨h1, h2⟩ := h
  rcases h2 with ⟨rfl, rfl⟩ | ⟨e, rfl, he⟩
  · exfalso
    obtain ⟨u, e, hu, he⟩ := hc
    rcases List.eq_nil_or_concat f with rfl | ⟨v, x, rfl⟩
    · cases u with
      | nil =>
        rw [← (List.cons.inj hu).1, iline_not_end hl] at he
        cases he
      | cons a u => simp at hu
    · rw [List.concat_eq_append, ← List.cons_append] at hu
      obtain ⟨-, h3⟩ := List.append_inj' hu rfl
      have := (h1 x (by simp)).2
      rw [(List.cons.inj h3).1, he] at this
      cases this
  · exact ⟨⟨h1, Or.inr ⟨e, by simp, he⟩⟩, ⟨body ++ [e], by simp⟩⟩

/-! ## Lists of pairs, `end`s of cells -/

theorem mod_shift {i j k n : Nat} (h : (i + j) % W < j + n) (hn : j + n + k ≤ W) : (i + (j + k)) % W = (i + j) % W + k := by
  unfold W at *
  omega

/-- The number of lines that start with `kw`. -/
def titles (kw : Str) (f : File) : Nat := (f.filter fun l => startsWith l kw).length

theorem titles_append (kw : Str) (f g : File) : titles kw (f ++ g) = titles kw f + titles kw g := by simp [titles]

theorem titles_suffix (kw : Str) {f g : File} (h : g <:+ f) : titles kw g ≤ titles kw f := by
  obtain ⟨t, rfl⟩ := h
  rw [titles_append]
  omega

theorem titles_first {kw : Str} {f : File} {l : Str} {rest : File} (h : First kw f l rest) : titles kw f = titles kw rest + 1 := by
  obtain ⟨pre, rfl, h1, h2⟩ := h
  rw [titles_append]
  have : titles kw pre = 0 := by
    rw [titles, List.length_eq_zero_iff, List.filter_eq_nil_iff]
    intro x hx
    simp [h2 x hx]
  rw [this, titles, List.filter_cons, if_pos h1]
  simp [titles]

theorem until_suffix {f body rest : File} (h : CurveOutcomes.Until f body rest) : rest <:+ f := by
  obtain ⟨-, e, rfl, -⟩ := h
  exact ⟨body ++ [e], by simp⟩

/-! ## Curves -/

namespace Curve
open CurveOutcomes

theorem objects_skip {f g : File} {os : List (Object D)} (h : Objects g os) (hf : ∀ l ∈ f, startsWith l cs!"GOCAD PLine" = false) : Objects (f ++ g) os := by
  cases h with
  | none h =>
    refine .none ?_
    intro l hl
    rcases List.mem_append.1 hl with hl | hl
    · exact hf l hl
    · exact h l hl
  | cons g1 g2 g3 g4 g5 g6 g7 => exact .cons (first_skip g1 hf) g2 g3 g4 g5 g6 g7

/-- The objects of two files one after the other. -/
theorem objects_append {f g : File} {os os' : List (Object D)} (h : Objects f os) (hc : f = [] ∨ Closed f) (h' : Objects g os') : Objects (f ++ g) (os ++ os') := by
  induction h with
  | none h => exact objects_skip h' h
  | @cons f title f1 name f2 crs f3 iline f4 body ps es rest os g1 g2 g3 g4 g5 g6 g7 ih =>
    have hc : Closed f := hc.resolve_left (first_ne g1)
    have n3 := first_ne g4
    have n2 := local_ne local_crs g3 n3
    have s4 : iline :: f4 <:+ f := (first_suffix g4).trans ((local_suffix local_crs g3).trans ((local_suffix local_header g2).trans
      ((List.suffix_cons _ _).trans (first_suffix g1))))
    have hl : startsWith iline cs!"ILINE" = true := g4.choose_spec.2.1
    obtain ⟨hu, hs⟩ := untilEnd_append hl g5 (closed_suffix hc s4 (by simp)) g
    refine .cons (first_append g1 g) (local_append local_header g2 n2 g) (local_append local_crs g3 n3 g) (first_append g4 g) hu g6 (ih ?_)
    by_cases hr : rest = []
    · exact Or.inl hr
    · exact Or.inr (closed_suffix hc (hs.trans ((List.suffix_cons _ _).trans s4)) hr)

omit [Num D] in
theorem lastName_none (n : Option Str) (os : List (Object D)) : lastName n os = (lastName none os <|> n) := by
  induction os generalizing n with
  | nil => simp [lastName]
  | cons o os ih =>
    rw [lastName, lastName, ih, ih (o.name <|> none)]
    cases lastName none os <;> cases o.name <;> simp

omit [Num D] in
theorem lastName_append (n : Option Str) (os os' : List (Object D)) : lastName n (os ++ os') = lastName (lastName n os) os' := by
  induction os generalizing n with
  | nil => rfl
  | cons o os ih => rw [List.cons_append, lastName, lastName, ih]

omit [Num D] in
theorem fits_append (k : Nat) (os os' : List (Object D)) : Fits k (os ++ os') ↔ Fits k os ∧ Fits (k + (os.flatMap Object.points).length) os' := by
  induction os generalizing k with
  | nil => simp [Fits]
  | cons o os ih => simp [Fits, ih, and_assoc, Nat.add_assoc]

omit [Num D] in
theorem placed_append (k : Nat) (os os' : List (Object D)) : placed k (os ++ os') = placed k os ++ placed (k + (os.flatMap Object.points).length) os' := by
  induction os generalizing k with
  | nil => simp [placed]
  | cons o os ih => simp [placed, ih, Nat.add_assoc]

/-- The edge with its ends moved by `k`. -/
def moved (k : Nat) (e : Nat × Nat) : Nat × Nat := (e.1 + k, e.2 + k)

omit [Num D] in
theorem fits_shift (k : Nat) (j : Nat) (os : List (Object D)) (h : Fits j os) (hn : j + (os.flatMap Object.points).length + k ≤ W) :
    Fits (j + k) os ∧ placed (j + k) os = (placed j os).map (moved k) := by
  induction os generalizing j with
  | nil => exact ⟨trivial, rfl⟩
  | cons o os ih =>
    simp only [List.flatMap_cons, List.length_append] at hn
    obtain ⟨h1, h2⟩ := ih (j + o.points.length) h.2 (by omega)
    have key : ∀ e ∈ o.edges, place (j + k) e = moved k (place j e) := by
      intro e he
      obtain ⟨h3, h4⟩ := h.1 e he
      unfold place moved
      rw [mod_shift h3 (by omega), mod_shift h4 (by omega)]
    refine ⟨⟨?_, ?_⟩, ?_⟩
    · intro e he
      obtain ⟨h3, h4⟩ := h.1 e he
      rw [key e he]
      unfold moved
      dsimp only
      omega
    · rw [show j + k + o.points.length = j + o.points.length + k by omega]; exact h1
    · rw [placed, placed, List.map_append, List.map_map, show j + k + o.points.length = j + o.points.length + k by omega, h2]
      congr 1
      exact List.map_congr_left key

/-- **C160 for curves**: a file that loads and ends with `END`, followed by another one that loads, gives the points of the one, then those of the other, with their edges. -/
theorem curve_append {f g : File} {m m' : Loaded Edge D} (hf : loadPL f = .ok m) (hg : loadPL g = .ok m') (hc : f = [] ∨ Closed f)
    (hn : m.points.length + m'.points.length ≤ W) :
    loadPL (f ++ g) = .ok { name := m'.name <|> m.name, points := m.points ++ m'.points, cells := m.cells ++ m'.cells.map (moved m.points.length) } := by
  obtain ⟨os, h1, h2, rfl⟩ := (curve_loads_iff _ _).1 hf
  obtain ⟨os', h3, h4, rfl⟩ := (curve_loads_iff _ _).1 hg
  simp only [curveOf] at hn
  obtain ⟨h5, h6⟩ := fits_shift (os.flatMap Object.points).length 0 os' h4 (by omega)
  refine (curve_loads_iff _ _).2 ⟨os ++ os', objects_append h1 hc h3, (fits_append _ _ _).2 ⟨h2, h5⟩, ?_⟩
  simp only [curveOf, lastName_append, placed_append, h6, List.flatMap_append]
  rw [lastName_none (lastName none os)]

/-! ### C161 -/

theorem untilEnd_suffix {f body rest : File} (h : UntilEnd f body rest) : rest <:+ f := by
  rcases h.2 with ⟨-, rfl⟩ | ⟨e, rfl, -⟩
  · exact List.nil_suffix
  · exact ⟨body ++ [e], by simp⟩

/-- No more objects than titles. -/
theorem at_most_titles {f : File} {os : List (Object D)} (h : Objects f os) : os.length ≤ titles cs!"GOCAD PLine" f := by
  induction h with
  | none h => simp
  | cons g1 g2 g3 g4 g5 g6 g7 ih =>
    have h1 := titles_first g1
    have h2 := titles_suffix cs!"GOCAD PLine" ((untilEnd_suffix g5).trans ((List.suffix_cons _ _).trans ((first_suffix g4).trans ((local_suffix local_crs g3).trans (local_suffix local_header g2)))))
    rw [List.length_cons]
    omega

theorem objects_pieces {parts : List File} (h : ∀ p ∈ parts, Closed p ∧ titles cs!"GOCAD PLine" p = 1 ∧ ∃ os : List (Object D), Objects p os) :
    ∃ os : List (Object D), Objects parts.flatten os ∧ os.length = parts.length := by
  induction parts with
  | nil => exact ⟨[], .none (by simp), rfl⟩
  | cons p parts ih =>
    obtain ⟨os', h2, h3⟩ := ih fun q hq => h q (by simp [hq])
    obtain ⟨hc, ht, os, h1⟩ := h p (by simp)
    refine ⟨os ++ os', objects_append h1 (Or.inr hc) h2, ?_⟩
    have hle := at_most_titles h1
    have hne : os ≠ [] := by
      rintro rfl
      cases h1 with
      | none h =>
        rw [titles, List.filter_eq_nil_iff.2 (by simpa using h)] at ht
        cases ht
    have := List.length_pos_iff.2 hne
    simp only [List.length_append, List.length_cons]
    omega

/-- C161: in a file that loads, each line `GOCAD PLine` starts an object. -/
def OneEach : Prop := ∀ (f : File) (os : List (Object Int)) (m : Loaded Edge Int), Objects f os → loadPL f = .ok m → os.length = titles cs!"GOCAD PLine" f

/-- **C161, the part that holds**: there are no more objects than titles, and there are as many when the file is made of parts that have one title and can be read alone. -/
theorem one_each_partial {f : File} {os : List (Object D)} (h : Objects f os) : os.length ≤ titles cs!"GOCAD PLine" f ∧ ∀ parts : List File, f = parts.flatten →
    (∀ p ∈ parts, Closed p ∧ titles cs!"GOCAD PLine" p = 1 ∧ ∃ os : List (Object D), Objects p os) → os.length = titles cs!"GOCAD PLine" f := by
  refine ⟨at_most_titles h, ?_⟩
  rintro parts rfl hp
  obtain ⟨os', h1, h2⟩ := objects_pieces hp
  rw [objects_unique h h1, h2]
  have key : ∀ ps : List File, (∀ p ∈ ps, titles cs!"GOCAD PLine" p = 1) → titles cs!"GOCAD PLine" ps.flatten = ps.length := by
    intro ps
    induction ps with
    | nil => intro _; rfl
    | cons p ps ih =>
      intro h
      rw [List.flatten_cons, titles_append, h p (by simp), ih fun q hq => h q (by simp [hq]), List.length_cons, Nat.add_comm]
  exact (key parts fun p hp' => (hp p hp').2.1).symm

/-- A curve without `ILINE`, then one with it. -/
def noIline : File := [cs!"GOCAD PLine 1", cs!"HEADER {", cs!"name: a", cs!"}", cs!"VRTX 1 0 0 0", cs!"END",
  cs!"GOCAD PLine 1", cs!"HEADER {", cs!"name: b", cs!"}", cs!"ILINE", cs!"VRTX 1 5 5 5", cs!"END"]

/-- The points of the second one are loaded, with the name of the first one. -/
theorem noIline_loads : (loadPL noIline : Res (Loaded Edge Int)) = .ok { name := some cs!"a", points := [⟨5, 5, 5⟩] } := by decide +kernel

/-- A curve without `END`, then another one. -/
def noEnd : File := [cs!"GOCAD PLine 1", cs!"HEADER {", cs!"}", cs!"ILINE", cs!"VRTX 1 0 0 0", cs!"VRTX 2 1 0 0", cs!"SEG 1 2",
  cs!"GOCAD PLine 1", cs!"HEADER {", cs!"}", cs!"ILINE", cs!"VRTX 1 5 5 5", cs!"VRTX 2 6 5 5", cs!"SEG 1 2", cs!"END"]

/-- The segment of the second one is loaded as the segment of the first one. -/
theorem noEnd_loads : (loadPL noEnd : Res (Loaded Edge Int)) = .ok { points := [⟨0, 0, 0⟩, ⟨1, 0, 0⟩, ⟨5, 5, 5⟩, ⟨6, 5, 5⟩], cells := [(0, 1), (0, 1)] } := by
  decide +kernel

/-- Neither is closed: with its `END`, the first curve of `noEnd` is loaded with its own segment, and so is the second. -/
example : (loadPL (noEnd.take 7 ++ [cs!"END"] ++ noEnd.drop 7) : Res (Loaded Edge Int)) =
    .ok { points := [⟨0, 0, 0⟩, ⟨1, 0, 0⟩, ⟨5, 5, 5⟩, ⟨6, 5, 5⟩], cells := [(0, 1), (2, 3)] } := by decide +kernel

/-- **C161 fails** for curves. -/
theorem one_each_fails : ¬ OneEach := by
  intro h
  have r1 : readECurve noIline = .ok (some ((⟨1, some cs!"a", {}, [⟨5, 5, 5⟩], []⟩ : ECurve Int), [])) := by decide +kernel
  exact absurd (h noIline _ _ (objects_of_read r1 (.none (by simp))) noIline_loads) (by decide +kernel)

/-- The hypotheses of `curve_append`. -/
example : ∃ m, (loadPL (CurveOutcomes.joined.take 8) : Res (Loaded Edge Int)) = .ok m ∧ Closed (CurveOutcomes.joined.take 8) ∧ m.points.length + m.points.length ≤ W :=
  ⟨{ points := [⟨0, 0, 0⟩, ⟨1, 0, 0⟩], cells := [(0, 1)] }, by decide +kernel, ⟨CurveOutcomes.joined.take 7, cs!"END", rfl, by decide +kernel⟩, by decide⟩

/-- A file of two parts that can be read alone. -/
example : ∀ p ∈ [CurveOutcomes.joined.take 8, CurveOutcomes.joined.drop 8], Closed p ∧ titles cs!"GOCAD PLine" p = 1 ∧ ∃ os : List (Object Int), Objects p os := by
  intro p hp
  simp only [List.mem_cons, List.not_mem_nil, or_false] at hp
  rcases hp with rfl | rfl
  · exact ⟨⟨CurveOutcomes.joined.take 7, cs!"END", rfl, by decide +kernel⟩, by decide +kernel, _,
      objects_of_read (ec := ⟨1, none, {}, [⟨0, 0, 0⟩, ⟨1, 0, 0⟩], [(0, 1)]⟩) (rest := []) (by decide +kernel) (.none (by simp))⟩
  · exact ⟨⟨(CurveOutcomes.joined.drop 8).take 7, cs!"END", rfl, by decide +kernel⟩, by decide +kernel, _,
      objects_of_read (ec := ⟨1, none, {}, [⟨5, 5, 5⟩, ⟨6, 5, 5⟩], [(4294967295, 0)]⟩) (rest := []) (by decide +kernel) (.none (by simp))⟩

end Curve

/-! ## Surfaces -/

namespace Surface
open SurfaceOutcomes

theorem objects_skip {f g : File} {os : List (Object D)} (h : Objects g os) (hf : ∀ l ∈ f, startsWith l cs!"GOCAD TSurf" = false) : Objects (f ++ g) os := by
  cases h with
  | none h =>
    refine .none ?_
    intro l hl
    rcases List.mem_append.1 hl with hl | hl
    · exact hf l hl
    · exact h l hl
  | cons g1 g2 g3 g4 g5 g6 g7 g8 => exact .cons (first_skip g1 hf) g2 g3 g4 g5 g6 g7 g8

/-- The objects of two files one after the other. -/
theorem objects_append {f g : File} {os os' : List (Object D)} (h : Objects f os) (h' : Objects g os') : Objects (f ++ g) (os ++ os') := by
  induction h with
  | none h => exact objects_skip h' h
  | cons g1 g2 g3 g4 g5 g6 g7 g8 ih =>
    have n4 := first_ne g5
    have n3 := local_ne (local_propHeader _) g4 n4
    have n2 := local_ne local_crs g3 n3
    exact .cons (first_append g1 g) (local_append local_header g2 n2 g) (local_append local_crs g3 n3 g) (local_append (local_propHeader _) g4 n4 g)
      (first_append g5 g) (until_append g6 g) g7 ih

omit [Num D] in
theorem lastName_none (n : Option Str) (os : List (Object D)) : lastName n os = (lastName none os <|> n) := by
  induction os generalizing n with
  | nil => simp [lastName]
  | cons o os ih =>
    rw [lastName, lastName, ih, ih (o.name <|> none)]
    cases lastName none os <;> cases o.name <;> simp

omit [Num D] in
theorem lastName_append (n : Option Str) (os os' : List (Object D)) : lastName n (os ++ os') = lastName (lastName n os) os' := by
  induction os generalizing n with
  | nil => rfl
  | cons o os ih => rw [List.cons_append, lastName, lastName, ih]

omit [Num D] in
theorem fits_append (k : Nat) (os os' : List (Object D)) : Fits k (os ++ os') ↔ Fits k os ∧ Fits (k + (os.flatMap Object.points).length) os' := by
  induction os generalizing k with
  | nil => simp [Fits]
  | cons o os ih => simp [Fits, ih, and_assoc, Nat.add_assoc]

omit [Num D] in
theorem placed_append (k : Nat) (os os' : List (Object D)) : placed k (os ++ os') = placed k os ++ placed (k + (os.flatMap Object.points).length) os' := by
  induction os generalizing k with
  | nil => simp [placed]
  | cons o os ih => simp [placed, ih, Nat.add_assoc]

/-- The triangle with its corners moved by `k`. -/
def moved (k : Nat) (t : Tri) : Tri := (t.1 + k, t.2.1 + k, t.2.2 + k)

omit [Num D] in
theorem fits_shift (k : Nat) (j : Nat) (os : List (Object D)) (h : Fits j os) (hn : j + (os.flatMap Object.points).length + k ≤ W) :
    Fits (j + k) os ∧ placed (j + k) os = (placed j os).map (moved k) := by
  induction os generalizing j with
  | nil => exact ⟨trivial, rfl⟩
  | cons o os ih =>
    simp only [List.flatMap_cons, List.length_append] at hn
    obtain ⟨h1, h2⟩ := ih (j + o.points.length) h.2 (by omega)
    have key : ∀ e ∈ o.triangles, place (j + k) e = moved k (place j e) := by
      intro e he
      obtain ⟨h3, h4, h5⟩ := h.1 e he
      unfold place at h3 h4 h5
      unfold place moved
      rw [mod_shift h3 (by omega), mod_shift h4 (by omega), mod_shift h5 (by omega)]
    refine ⟨⟨?_, ?_⟩, ?_⟩
    · intro e he
      obtain ⟨h3, h4, h5⟩ := h.1 e he
      rw [key e he]
      unfold moved Within
      dsimp only
      omega
    · rw [show j + k + o.points.length = j + o.points.length + k by omega]; exact h1
    · rw [placed, placed, List.map_append, List.map_map, show j + k + o.points.length = j + o.points.length + k by omega, h2]
      congr 1
      exact List.map_congr_left key

/-- **C160 for surfaces**: a file that loads, followed by another one that loads, gives the points of the one, then those of the other, with their triangles. -/
theorem surface_append {f g : File} {m m' : Loaded Tri D} (hf : loadTS f = .ok m) (hg : loadTS g = .ok m') (hn : m.points.length + m'.points.length ≤ W) :
    ∃ st, loadTS (f ++ g) =
      .ok { name := m'.name <|> m.name, points := m.points ++ m'.points, cells := m.cells ++ m'.cells.map (moved m.points.length), store := st } := by
  obtain ⟨os, h1, h2, e1, e2, e3⟩ := (surface_loads_iff f m.name m.points m.cells).1 ⟨m.store, hf⟩
  obtain ⟨os', h3, h4, e4, e5, e6⟩ := (surface_loads_iff g m'.name m'.points m'.cells).1 ⟨m'.store, hg⟩
  rw [e2, e5] at hn
  obtain ⟨h5, h6⟩ := fits_shift (os.flatMap Object.points).length 0 os' h4 (by omega)
  refine (surface_loads_iff _ _ _ _).2 ⟨os ++ os', objects_append h1 h3, (fits_append _ _ _).2 ⟨h2, h5⟩, ?_⟩
  simp only [lastName_append, placed_append, h6, List.flatMap_append]
  rw [lastName_none (lastName none os), ← e1, ← e2, ← e3, ← e4, ← e5, ← e6]
  exact ⟨rfl, rfl, rfl⟩

/-! ### C161 -/

/-- No more objects than titles. -/
theorem at_most_titles {f : File} {os : List (Object D)} (h : Objects f os) : os.length ≤ titles cs!"GOCAD TSurf" f := by
  induction h with
  | none h => simp
  | cons g1 g2 g3 g4 g5 g6 g7 g8 ih =>
    have h1 := titles_first g1
    have h2 := titles_suffix cs!"GOCAD TSurf" ((until_suffix g6).trans ((List.suffix_cons _ _).trans ((first_suffix g5).trans ((local_suffix (local_propHeader _) g4).trans ((local_suffix local_crs g3).trans (local_suffix local_header g2))))))
    rw [List.length_cons]
    omega

theorem objects_pieces {parts : List File} (h : ∀ p ∈ parts, titles cs!"GOCAD TSurf" p = 1 ∧ ∃ os : List (Object D), Objects p os) :
    ∃ os : List (Object D), Objects parts.flatten os ∧ os.length = parts.length := by
  induction parts with
  | nil => exact ⟨[], .none (by simp), rfl⟩
  | cons p parts ih =>
    obtain ⟨os', h2, h3⟩ := ih fun q hq => h q (by simp [hq])
    obtain ⟨ht, os, h1⟩ := h p (by simp)
    refine ⟨os ++ os', objects_append h1 h2, ?_⟩
    have hle := at_most_titles h1
    have hne : os ≠ [] := by
      rintro rfl
      cases h1 with
      | none h =>
        rw [titles, List.filter_eq_nil_iff.2 (by simpa using h)] at ht
        cases ht
    have := List.length_pos_iff.2 hne
    simp only [List.length_append, List.length_cons]
    omega

/-- C161: in a file that loads, each line `GOCAD TSurf` starts an object. -/
def OneEach : Prop := ∀ (f : File) (os : List (Object Int)) (m : Loaded Tri Int), Objects f os → loadTS f = .ok m → os.length = titles cs!"GOCAD TSurf" f

/-- **C161, the part that holds**: there are no more objects than titles, and there are as many when the file is made of parts that have one title and can be read alone. -/
theorem one_each_partial {f : File} {os : List (Object D)} (h : Objects f os) : os.length ≤ titles cs!"GOCAD TSurf" f ∧ ∀ parts : List File, f = parts.flatten →
    (∀ p ∈ parts, titles cs!"GOCAD TSurf" p = 1 ∧ ∃ os : List (Object D), Objects p os) → os.length = titles cs!"GOCAD TSurf" f := by
  refine ⟨at_most_titles h, ?_⟩
  rintro parts rfl hp
  obtain ⟨os', h1, h2⟩ := objects_pieces hp
  rw [objects_unique h h1, h2]
  have key : ∀ ps : List File, (∀ p ∈ ps, titles cs!"GOCAD TSurf" p = 1) → titles cs!"GOCAD TSurf" ps.flatten = ps.length := by
    intro ps
    induction ps with
    | nil => intro _; rfl
    | cons p ps ih =>
      intro h
      rw [List.flatten_cons, titles_append, h p (by simp), ih fun q hq => h q (by simp [hq]), List.length_cons, Nat.add_comm]
  exact (key parts fun p hp' => (hp p hp').1).symm

/-- A surface without `TFACE`, then one with it. -/
def noTface : File := [cs!"GOCAD TSurf 1", cs!"HEADER {", cs!"name: a", cs!"}", cs!"VRTX 1 0 0 0", cs!"END",
  cs!"GOCAD TSurf 1", cs!"HEADER {", cs!"name: b", cs!"}", cs!"TFACE", cs!"VRTX 1 5 5 5", cs!"END"]

/-- The points of the second one are loaded, with the name of the first one. -/
theorem noTface_loads : (loadTS noTface : Res (Loaded Tri Int)) = .ok { name := some cs!"a", points := [⟨5, 5, 5⟩] } := by decide +kernel

/-- **C161 fails** for surfaces. -/
theorem one_each_fails : ¬ OneEach := by
  intro h
  have r1 : readTSurf noTface = .ok (some ((⟨1, some cs!"a", {}, {}, [⟨5, 5, 5⟩], [], [0, 0], [0, 1], [], [], []⟩ : TSurf Int), [])) := by decide +kernel
  exact absurd (h noTface _ _ (objects_of_read r1 (.none (by simp))) noTface_loads) (by decide +kernel)

/-- Two saved surfaces, one after the other in a file, are both found in the surface that is loaded. -/
theorem saved_append [LawfulNum D] {m m' : Mesh Tri D} (g : GoodSurf m) (g' : GoodSurf m') (hd : ((written m.attrs).map Attr.name).Nodup)
    (hd' : ((written m'.attrs).map Attr.name).Nodup) (hn : m.points.length + m'.points.length ≤ W) :
    ∃ st, loadTS (saveTS m ++ saveTS m') =
      .ok ⟨m'.name <|> m.name, (m.points ++ m'.points).map Pt.round, m.cells ++ m'.cells.map (moved m.points.length), st⟩ := by
  obtain ⟨st, h⟩ := surface_append (Props.TSurf.load_save g hd) (Props.TSurf.load_save g' hd') (by simpa using hn)
  exact ⟨st, by rw [h]; simp⟩

/-- The hypotheses of `surface_append`. -/
example : ∃ m, (loadTS (SurfaceOutcomes.joined.take 9) : Res (Loaded Tri Int)) = .ok m ∧ m.points.length + m.points.length ≤ W :=
  ⟨{ points := [⟨0, 0, 0⟩, ⟨1, 0, 0⟩, ⟨0, 0, 0⟩], cells := [(0, 1, 2)] }, by decide +kernel, by decide⟩

/-- A file of two parts that can be read alone. -/
example : ∀ p ∈ [SurfaceOutcomes.joined.take 9, SurfaceOutcomes.joined.take 9], titles cs!"GOCAD TSurf" p = 1 ∧ ∃ os : List (Object Int), Objects p os := by
  have hl : ∃ m : Loaded Tri Int, loadTS (SurfaceOutcomes.joined.take 9) = .ok m :=
    ⟨{ points := [⟨0, 0, 0⟩, ⟨1, 0, 0⟩, ⟨0, 0, 0⟩], cells := [(0, 1, 2)] }, by decide +kernel⟩
  obtain ⟨m, hm⟩ := hl
  obtain ⟨os, h, -⟩ := (surface_loads_iff _ m.name m.points m.cells).1 ⟨m.store, hm⟩
  intro p hp
  have : p = SurfaceOutcomes.joined.take 9 := by simpa using hp
  subst this
  exact ⟨by decide +kernel, os, h⟩

end Surface

/-! ## Pointss -/

namespace Points
open PointSetOutcomes

theorem objects_skip {f g : File} {os : List (Object D)} (h : Objects g os) (hf : ∀ l ∈ f, startsWith l cs!"GOCAD VSet" = false) : Objects (f ++ g) os := by
  cases h with
  | none h =>
    refine .none ?_
    intro l hl
    rcases List.mem_append.1 hl with hl | hl
    · exact hf l hl
    · exact h l hl
  | cons g1 g2 g3 g4 g5 g6 g7 g8 => exact .cons (first_skip g1 hf) g2 g3 g4 g5 g6 g7 g8

theorem firstVertex_append {f : File} {l : Str} {rest : File} (h : FirstVertex f l rest) (g : File) : FirstVertex (f ++ g) l (rest ++ g) := by
  obtain ⟨pre, rfl, h1, h2⟩ := h
  exact ⟨pre, by simp, h1, h2⟩

/-- The objects of two files one after the other. -/
theorem objects_append {f g : File} {os os' : List (Object D)} (h : Objects f os) (h' : Objects g os') : Objects (f ++ g) (os ++ os') := by
  induction h with
  | none h => exact objects_skip h' h
  | cons g1 g2 g3 g4 g5 g6 g7 g8 ih =>
    have n4 : ∀ {f : File} {l : Str} {rest : File}, FirstVertex f l rest → f ≠ [] := by
      rintro f l rest ⟨pre, rfl, -, -⟩
      simp
    have n4 := n4 g5
    have n3 := local_ne (local_propHeader _) g4 n4
    have n2 := local_ne local_crs g3 n3
    exact .cons (first_append g1 g) (local_append local_header g2 n2 g) (local_append local_crs g3 n3 g) (local_append (local_propHeader _) g4 n4 g)
      (firstVertex_append g5 g) (until_append g6 g) g7 ih

omit [Num D] in
theorem lastName_none (n : Option Str) (os : List (Object D)) : lastName n os = (lastName none os <|> n) := by
  induction os generalizing n with
  | nil => simp [lastName]
  | cons o os ih =>
    rw [lastName, lastName, ih, ih (o.name <|> none)]
    cases lastName none os <;> cases o.name <;> simp

omit [Num D] in
theorem lastName_append (n : Option Str) (os os' : List (Object D)) : lastName n (os ++ os') = lastName (lastName n os) os' := by
  induction os generalizing n with
  | nil => rfl
  | cons o os ih => rw [List.cons_append, lastName, lastName, ih]

/-- **C160 for point sets**: a file that loads, followed by another one that loads, gives the points of the one, then those of the other. -/
theorem points_append {f g : File} {m m' : Loaded Empty D} (hf : loadVS f = .ok m) (hg : loadVS g = .ok m') :
    ∃ st, loadVS (f ++ g) = .ok { name := m'.name <|> m.name, points := m.points ++ m'.points, store := st } := by
  obtain ⟨n, ps, cs, st⟩ := m
  obtain ⟨n', ps', cs', st'⟩ := m'
  obtain rfl : cs = [] := by cases cs with | nil => rfl | cons c _ => exact c.elim
  obtain rfl : cs' = [] := by cases cs' with | nil => rfl | cons c _ => exact c.elim
  obtain ⟨os, h1, rfl, rfl⟩ := (points_load_iff f n ps).1 ⟨st, hf⟩
  obtain ⟨os', h3, rfl, rfl⟩ := (points_load_iff g n' ps').1 ⟨st', hg⟩
  refine (points_load_iff _ _ _).2 ⟨os ++ os', objects_append h1 h3, ?_⟩
  simp only [lastName_append, List.flatMap_append]
  exact ⟨(lastName_none _ _).symm, trivial⟩

/-! ### C161 -/

theorem firstVertex_suffix {f : File} {l : Str} {rest : File} (h : FirstVertex f l rest) : l :: rest <:+ f := by
  obtain ⟨pre, rfl, -, -⟩ := h
  exact List.suffix_append _ _

/-- No more objects than titles. -/
theorem at_most_titles {f : File} {os : List (Object D)} (h : Objects f os) : os.length ≤ titles cs!"GOCAD VSet" f := by
  induction h with
  | none h => simp
  | cons g1 g2 g3 g4 g5 g6 g7 g8 ih =>
    have h1 := titles_first g1
    have h2 := titles_suffix cs!"GOCAD VSet" ((until_suffix g6).trans ((firstVertex_suffix g5).trans ((local_suffix (local_propHeader _) g4).trans ((local_suffix local_crs g3).trans (local_suffix local_header g2)))))
    rw [List.length_cons]
    omega

theorem objects_pieces {parts : List File} (h : ∀ p ∈ parts, titles cs!"GOCAD VSet" p = 1 ∧ ∃ os : List (Object D), Objects p os) :
    ∃ os : List (Object D), Objects parts.flatten os ∧ os.length = parts.length := by
  induction parts with
  | nil => exact ⟨[], .none (by simp), rfl⟩
  | cons p parts ih =>
    obtain ⟨os', h2, h3⟩ := ih fun q hq => h q (by simp [hq])
    obtain ⟨ht, os, h1⟩ := h p (by simp)
    refine ⟨os ++ os', objects_append h1 h2, ?_⟩
    have hle := at_most_titles h1
    have hne : os ≠ [] := by
      rintro rfl
      cases h1 with
      | none h =>
        rw [titles, List.filter_eq_nil_iff.2 (by simpa using h)] at ht
        cases ht
    have := List.length_pos_iff.2 hne
    simp only [List.length_append, List.length_cons]
    omega

/-- C161: in a file that loads, each line `GOCAD VSet` starts an object. -/
def OneEach : Prop := ∀ (f : File) (os : List (Object Int)) (m : Loaded Empty Int), Objects f os → loadVS f = .ok m → os.length = titles cs!"GOCAD VSet" f

/-- **C161, the part that holds**: there are no more objects than titles, and there are as many when the file is made of parts that have one title and can be read alone. -/
theorem one_each_partial {f : File} {os : List (Object D)} (h : Objects f os) : os.length ≤ titles cs!"GOCAD VSet" f ∧ ∀ parts : List File, f = parts.flatten →
    (∀ p ∈ parts, titles cs!"GOCAD VSet" p = 1 ∧ ∃ os : List (Object D), Objects p os) → os.length = titles cs!"GOCAD VSet" f := by
  refine ⟨at_most_titles h, ?_⟩
  rintro parts rfl hp
  obtain ⟨os', h1, h2⟩ := objects_pieces hp
  rw [objects_unique h h1, h2]
  have key : ∀ ps : List File, (∀ p ∈ ps, titles cs!"GOCAD VSet" p = 1) → titles cs!"GOCAD VSet" ps.flatten = ps.length := by
    intro ps
    induction ps with
    | nil => intro _; rfl
    | cons p ps ih =>
      intro h
      rw [List.flatten_cons, titles_append, h p (by simp), ih fun q hq => h q (by simp [hq]), List.length_cons, Nat.add_comm]
  exact (key parts fun p hp' => (hp p hp').1).symm

/-- An empty point set, then one of one point. -/
def noPoint : File := [cs!"GOCAD VSet 1", cs!"HEADER {", cs!"name: a", cs!"}", cs!"END",
  cs!"GOCAD VSet 1", cs!"HEADER {", cs!"name: b", cs!"}", cs!"VRTX 1 5 5 5", cs!"END"]

/-- The point of the second one is loaded, with the name of the first one. -/
theorem noPoint_loads : (loadVS noPoint : Res (Loaded Empty Int)) = .ok { name := some cs!"a", points := [⟨5, 5, 5⟩] } := by decide +kernel

/-- **C161 fails** for point sets. -/
theorem one_each_fails : ¬ OneEach := by
  intro h
  have r1 : readVSet noPoint = .ok (some ((⟨1, some cs!"a", {}, {}, [⟨5, 5, 5⟩], []⟩ : VSet Int), [])) := by decide +kernel
  obtain ⟨-, title, f1, f2, f3, f4, l, f5, body, g1, g2, g3, g4, g5, g6, g7⟩ := object_iff r1
  exact absurd (h noPoint _ _ (.cons g1 g2 g3 g4 g5 g6 g7 (.none (by simp))) noPoint_loads) (by decide +kernel)

/-- The hypothesis of `points_append`. -/
example : ∃ m, (loadVS (noPoint.drop 5) : Res (Loaded Empty Int)) = .ok m := ⟨{ name := some cs!"b", points := [⟨5, 5, 5⟩] }, by decide +kernel⟩

/-- A file of one part, read alone. -/
example : titles cs!"GOCAD VSet" (noPoint.drop 5) = 1 ∧ ∃ os : List (Object Int), Objects (noPoint.drop 5) os := by
  have hl : (loadVS (noPoint.drop 5) : Res (Loaded Empty Int)) = .ok { name := some cs!"b", points := [⟨5, 5, 5⟩], store := [] } := by decide +kernel
  obtain ⟨os, h, -⟩ := (points_load_iff _ _ _).1 ⟨[], hl⟩
  exact ⟨by decide +kernel, os, h⟩

end Points

end Verif.Props.GocadFiles
