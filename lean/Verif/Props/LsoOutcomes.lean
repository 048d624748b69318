import Verif.Props.SurfaceOutcomes
import Verif.Props.PropHeaders
import Verif.Props.LsoFile

/-!
# C163: which LSO files load

As `Props.SurfaceOutcomes`, for `.lso` files: the files that `LSOInput` reads, with the points, tetrahedra, surfaces and blocks they give.  The relations
between blocks and surfaces and the values of the properties are the subject of other properties.  Theorems about `Model.Lso`.
-/

namespace Verif.Props.LsoOutcomes

open Verif Verif.Gocad Verif.GocadMesh Verif.Lso Res
open Verif.Props.WlOutcomes (First goto_iff)
open Verif.Props.CurveOutcomes (Coordinates point_iff)
open Verif.Props.PointSetOutcomes (Valued Filled properties_iff filled_step header_lengths FirstVertex firstVertex_iff)
open Verif.Props.SurfaceOutcomes (Third third_iff readIndex_ok)
open Verif.Props.PropHeaders (Header header_iff mapM'_iff)
open Verif.Props.LsoFile (isRegion)
open Verif.Props.LsoIndicators (noSolid)

variable {D : Type} [Num D]

/-! ## Vertices -/

/-- The line of a vertex at the place of another one. -/
def isShared (l : Str) : Bool := startsWith l cs!"SHARED"

/-- The line of a vertex after the points `prev`, `nb` of which have a line of their own: its point and the number of its place. -/
def VertexLine (up : Bool) (es : List Nat) (prev : List (Pt D)) (nb : Nat) (l : Str) (p : Pt D) (id : Nat) : Prop :=
  (isShared l = true ∧ (∃ n, Third l n ∧ id = sub32 n 1) ∧ prev[id]? = some p ∧ id < nb ∧ Valued D es ((split l).drop 3)) ∨
    (isShared l = false ∧ Coordinates up l p ∧ id = nb ∧ Valued D es ((split l).drop 5))

/-- The lines of vertices after the points `prev`, `nb` of which have a line of their own: their points and the numbers of their places. -/
def Vertices (up : Bool) (es : List Nat) : List (Pt D) → Nat → File → List (Pt D) → List Nat → Prop
  | _, _, [], ps, ids => ps = [] ∧ ids = []
  | prev, nb, l :: ls, ps, ids => ∃ p id ps' ids', ps = p :: ps' ∧ ids = id :: ids' ∧ VertexLine up es prev nb l p id ∧
      Vertices up es (prev ++ [p]) (nb + if isShared l then 0 else 1) ls ps' ids'

/-- Number of lines of vertices with a place of their own. -/
def own (ls : File) : Nat := (ls.filter fun l => !isShared l).length

/-- What lines of vertices add to a solid. -/
structure Grown (h : PropHeader D) (s s' : Solid D) (ps : List (Pt D)) (ids : List Nat) (n : Nat) : Prop where
  points : s'.points = s.points ++ ps
  ids : s'.ids = s.ids ++ ids
  nb : s'.nbUnique = s.nbUnique + n
  tetras : s'.tetras = s.tetras
  names : s'.names = s.names
  tattrs : s'.tattrs = s.tattrs
  filled : Filled h s'.vattrs s'.points.length

theorem vertex_fwd {up : Bool} {h : PropHeader D} {s s' : Solid D} {l : Str} (hf : Filled h s.vattrs s.points.length)
    (e : readVertex up h.esizes s l = .ok s') : ∃ p id, VertexLine up h.esizes s.points s.nbUnique l p id ∧
      Grown h s s' [p] [id] (if isShared l then 0 else 1) := by
  unfold readVertex at e
  dsimp only at e
  cases hs : isShared l with
  | true =>
    rw [if_pos (show startsWith l cs!"SHARED" = true from hs)] at e
    obtain ⟨w, e1, e⟩ := bind_eq_ok.1 e
    obtain ⟨n, e2, e⟩ := bind_eq_ok.1 e
    obtain ⟨p, e3, e⟩ := bind_eq_ok.1 e
    obtain ⟨va, e4, e⟩ := bind_eq_ok.1 e
    by_cases hu : sub32 n 1 < s.nbUnique
    · rw [if_pos hu] at e
      cases e
      refine ⟨p, sub32 n 1, Or.inl ⟨hs, ⟨n, third_iff.1 (by rw [e1, ok_bind, e2]), rfl⟩, index_eq_ok.1 e3, hu,
        (properties_iff _ s.vattrs (hf.sizes.trans hf.cols.symm) _).1 ⟨va, e4⟩⟩, rfl, rfl, by simp, rfl, rfl, rfl, by simpa using filled_step hf e4⟩
    · rw [if_neg hu] at e
      cases e
  | false =>
    rw [if_neg (by rw [show startsWith l cs!"SHARED" = false from hs]; simp)] at e
    obtain ⟨p, e3, e⟩ := bind_eq_ok.1 e
    obtain ⟨va, e4, e⟩ := bind_eq_ok.1 e
    cases e
    exact ⟨p, s.nbUnique, Or.inr ⟨hs, point_iff.1 e3, rfl, (properties_iff _ s.vattrs (hf.sizes.trans hf.cols.symm) _).1 ⟨va, e4⟩⟩, rfl, rfl, by simp, rfl, rfl,
      rfl, by simpa using filled_step hf e4⟩

theorem vertex_bwd {up : Bool} {h : PropHeader D} {s : Solid D} {l : Str} {p : Pt D} {id : Nat} (hf : Filled h s.vattrs s.points.length)
    (hv : VertexLine up h.esizes s.points s.nbUnique l p id) : ∃ s', readVertex up h.esizes s l = .ok s' ∧
      Grown h s s' [p] [id] (if isShared l then 0 else 1) := by
  unfold readVertex
  dsimp only
  rcases hv with ⟨hs, ⟨n, h1, h0⟩, h2, h3, h4⟩ | ⟨hs, h1, h0, h4⟩
  · obtain ⟨va, hva⟩ := (properties_iff _ s.vattrs (hf.sizes.trans hf.cols.symm) _).2 h4
    obtain ⟨w, g1, g2⟩ := bind_eq_ok.1 (third_iff.2 h1)
    rw [if_pos (show startsWith l cs!"SHARED" = true from hs), g1, ok_bind, g2, ok_bind, ← h0, index_eq_ok.2 h2, ok_bind, hva, ok_bind, if_pos h3, hs]
    exact ⟨_, rfl, rfl, rfl, by simp, rfl, rfl, rfl, by simpa using filled_step hf hva⟩
  · subst h0
    obtain ⟨va, hva⟩ := (properties_iff _ s.vattrs (hf.sizes.trans hf.cols.symm) _).2 h4
    rw [if_neg (by rw [show startsWith l cs!"SHARED" = false from hs]; simp), point_iff.2 h1, ok_bind, hva, ok_bind, hs]
    exact ⟨_, rfl, rfl, rfl, by simp, rfl, rfl, rfl, by simpa using filled_step hf hva⟩

theorem Grown.trans {h : PropHeader D} {a b c : Solid D} {p q : List (Pt D)} {i j : List Nat} {n m : Nat} (h1 : Grown h a b p i n) (h2 : Grown h b c q j m) :
    Grown h a c (p ++ q) (i ++ j) (n + m) :=
  ⟨by rw [h2.points, h1.points, List.append_assoc], by rw [h2.ids, h1.ids, List.append_assoc], by rw [h2.nb, h1.nb, Nat.add_assoc],
    h2.tetras.trans h1.tetras, h2.names.trans h1.names, h2.tattrs.trans h1.tattrs, h2.filled⟩

theorem own_cons (l : Str) (ls : File) : own (l :: ls) = (if isShared l then 0 else 1) + own ls := by
  unfold own
  cases h : isShared l <;> simp [h]
  omega

/-- The line of a vertex once the first one has been read. -/
def hasVrtx (l : Str) : Bool := contains cs!"VRTX" l

theorem loop_iff {up : Bool} {h : PropHeader D} (f : File) (s : Solid D) (hf : Filled h s.vattrs s.points.length) {s' : Solid D} {l : Str} {g : File} :
    (readVerticesLoop up h.esizes s f = .ok (s', l, g) → ∃ ps ids, Vertices up h.esizes s.points s.nbUnique (f.takeWhile hasVrtx) ps ids ∧
      Grown h s s' ps ids (own (f.takeWhile hasVrtx)) ∧ (l, g) = nextLine (f.dropWhile hasVrtx)) ∧
    ∀ ps ids, Vertices up h.esizes s.points s.nbUnique (f.takeWhile hasVrtx) ps ids → ∃ s', readVerticesLoop up h.esizes s f =
      .ok (s', nextLine (f.dropWhile hasVrtx)) ∧ Grown h s s' ps ids (own (f.takeWhile hasVrtx)) := by
  induction f generalizing s with
  | nil =>
    constructor
    · intro e
      cases e
      exact ⟨[], [], ⟨rfl, rfl⟩, ⟨by simp, by simp, rfl, rfl, rfl, rfl, hf⟩, rfl⟩
    · rintro ps ids ⟨rfl, rfl⟩
      exact ⟨s, rfl, by simp, by simp, rfl, rfl, rfl, rfl, hf⟩
  | cons x f ih =>
    cases hx : hasVrtx x with
    | true =>
      rw [List.takeWhile_cons_of_pos hx, List.dropWhile_cons_of_pos hx, readVerticesLoop,
        if_pos (show contains cs!"VRTX" x = true from hx), own_cons]
      constructor
      · intro e
        obtain ⟨s1, e1, e2⟩ := bind_eq_ok.1 e
        obtain ⟨p, id, hv, hg⟩ := vertex_fwd hf e1
        obtain ⟨ps, ids, h1, h2, h3⟩ := (ih s1 hg.filled).1 e2
        rw [hg.points, hg.nb] at h1
        exact ⟨p :: ps, id :: ids, ⟨p, id, ps, ids, rfl, rfl, hv, h1⟩, hg.trans h2, h3⟩
      · rintro ps ids ⟨p, id, ps, ids, rfl, rfl, hv, h1⟩
        obtain ⟨s1, e1, hg⟩ := vertex_bwd hf hv
        rw [← hg.points, ← hg.nb] at h1
        obtain ⟨s', e2, h2⟩ := (ih s1 hg.filled).2 ps ids h1
        exact ⟨s', by rw [e1, ok_bind, e2], hg.trans h2⟩
    | false =>
      rw [List.takeWhile_cons_of_neg (by simp [hx]), List.dropWhile_cons_of_neg (by simp [hx]), readVerticesLoop,
        if_neg (by rw [show contains cs!"VRTX" x = false from hx]; simp)]
      constructor
      · intro e
        cases e
        exact ⟨[], [], ⟨rfl, rfl⟩, ⟨by simp, by simp, rfl, rfl, rfl, rfl, hf⟩, rfl⟩
      · rintro ps ids ⟨rfl, rfl⟩
        exact ⟨s, rfl, by simp, by simp, rfl, rfl, rfl, rfl, hf⟩

theorem vertices_fwd {up : Bool} {h : PropHeader D} {f : File} {s : Solid D} (hf : Filled h s.vattrs s.points.length) {s' : Solid D} {l : Str} {g : File}
    (e : readVertices up h.esizes s f = .ok (s', l, g)) : ∃ v after ps ids, FirstVertex f v after ∧
      Vertices up h.esizes s.points s.nbUnique (v :: after.takeWhile hasVrtx) ps ids ∧ Grown h s s' ps ids (own (v :: after.takeWhile hasVrtx)) ∧
      (l, g) = nextLine (after.dropWhile hasVrtx) := by
  unfold readVertices at e
  obtain ⟨⟨v, after⟩, e1, e⟩ := bind_eq_ok.1 e
  obtain ⟨s1, e2, e⟩ := bind_eq_ok.1 e
  obtain ⟨p, id, hv, hg⟩ := vertex_fwd hf e2
  obtain ⟨ps, ids, h1, h2, h3⟩ := (loop_iff after s1 hg.filled).1 e
  rw [hg.points, hg.nb] at h1
  refine ⟨v, after, p :: ps, id :: ids, firstVertex_iff.1 e1, ⟨p, id, ps, ids, rfl, rfl, hv, h1⟩, ?_, h3⟩
  rw [own_cons]
  exact hg.trans h2

theorem vertices_bwd {up : Bool} {h : PropHeader D} {f : File} {s : Solid D} (hf : Filled h s.vattrs s.points.length) {v : Str} {after : File}
    {ps : List (Pt D)} {ids : List Nat} (h1 : FirstVertex f v after)
    (h2 : Vertices up h.esizes s.points s.nbUnique (v :: after.takeWhile hasVrtx) ps ids) :
    ∃ s', readVertices up h.esizes s f = .ok (s', nextLine (after.dropWhile hasVrtx)) ∧ Grown h s s' ps ids (own (v :: after.takeWhile hasVrtx)) := by
  obtain ⟨p, id, ps, ids, rfl, rfl, hv, h2⟩ := h2
  obtain ⟨s1, e1, hg⟩ := vertex_bwd hf hv
  rw [← hg.points, ← hg.nb] at h2
  obtain ⟨s', e2, h3⟩ := (loop_iff after s1 hg.filled (s' := s1) (l := []) (g := [])).2 ps ids h2
  refine ⟨s', ?_, ?_⟩
  · unfold readVertices
    rw [firstVertex_iff.2 h1, ok_bind]
    dsimp only
    rw [e1, ok_bind, e2]
  · rw [own_cons]
    exact hg.trans h3

/-! ## Sections that are skipped -/

/-- The lines after a section of indicators, if the first line opens one. -/
def Skip (kind : Str) (f rest : File) : Prop :=
  ((∀ l ∈ f.head?, startsWith l (cs!"BEGIN_" ++ kind ++ cs!"_REGION_INDICATORS") = false) ∧ rest = f) ∨
    ∃ b f' e, f = b :: f' ∧ startsWith b (cs!"BEGIN_" ++ kind ++ cs!"_REGION_INDICATORS") = true ∧ First (cs!"END_" ++ kind ++ cs!"_REGION_INDICATORS") f' e rest

theorem skip_fwd {kind : Str} {f : File} {r : Str × File} (e : skipSection kind (nextLine f).1 (nextLine f).2 = .ok r) :
    ∃ rest, Skip kind f rest ∧ r = nextLine rest := by
  unfold skipSection at e
  cases f with
  | nil => cases e; exact ⟨[], Or.inl ⟨by simp, rfl⟩, rfl⟩
  | cons l f =>
    cases hb : startsWith l (cs!"BEGIN_" ++ kind ++ cs!"_REGION_INDICATORS") with
    | true =>
      rw [show (nextLine (l :: f)).1 = l from rfl, if_pos hb] at e
      obtain ⟨⟨x, g⟩, e1, e⟩ := bind_eq_ok.1 e
      cases e
      exact ⟨g, Or.inr ⟨l, f, x, rfl, hb, goto_iff.1 e1⟩, rfl⟩
    | false =>
      rw [show (nextLine (l :: f)).1 = l from rfl, if_neg (by rw [hb]; exact Bool.false_ne_true)] at e
      cases e
      exact ⟨l :: f, Or.inl ⟨fun x hx => by cases hx; exact hb, rfl⟩, rfl⟩

theorem skip_bwd {kind : Str} {f rest : File} (h : Skip kind f rest) : skipSection kind (nextLine f).1 (nextLine f).2 = .ok (nextLine rest) := by
  unfold skipSection
  rcases h with ⟨h, rfl⟩ | ⟨b, f', e, rfl, hb, he⟩
  · cases rest with
    | nil => rw [if_neg (by simp [nextLine, startsWith])]
    | cons l f =>
      rw [show (nextLine (l :: f)).1 = l from rfl, if_neg (by rw [h l rfl]; exact Bool.false_ne_true)]
      rfl
  · rw [show (nextLine (b :: f')).1 = b from rfl, if_pos hb, show (nextLine (b :: f')).2 = f' from rfl, goto_iff.2 he]
    rfl

/-! ## Tetrahedra -/

/-- The `n` words after the first one are numbers, and `t` has these numbers counted from 1, modulo 2^32. -/
def Cell (n : Nat) (l : Str) (t : List Nat) : Prop :=
  t.length = n ∧ ∀ i < n, ∃ w k, (split l)[i + 1]? = some w ∧ parseIndex w = some k ∧ t[i]? = some (sub32 k 1)

theorem cell_iff {n : Nat} {l : Str} {t : List Nat} : readCell n (split l) = .ok t ↔ Cell n l t := by
  unfold readCell
  rw [mapM'_iff, List.forall₂_iff_get]
  unfold Cell
  have key : ∀ (i v : Nat), ((Res.index (split l) (1 + i) >>= fun w => readIndex w >>= fun v => pure (sub32 v 1)) : Res Nat) = .ok v ↔
      ∃ w k, (split l)[i + 1]? = some w ∧ parseIndex w = some k ∧ v = sub32 k 1 := by
    intro i v
    constructor
    · intro e
      obtain ⟨w, e1, e⟩ := bind_eq_ok.1 e
      obtain ⟨k, e2, e⟩ := bind_eq_ok.1 e
      exact ⟨w, k, by rw [Nat.add_comm]; exact index_eq_ok.1 e1, readIndex_ok.1 e2, (Res.ok.inj e).symm⟩
    · rintro ⟨w, k, h1, h2, h3⟩
      rw [index_eq_ok.2 (by rw [Nat.add_comm]; exact h1), ok_bind, readIndex_ok.2 h2, ok_bind, h3, pure_eq]
  constructor
  · rintro ⟨h1, h2⟩
    rw [List.length_range'] at h1
    refine ⟨h1.symm, fun i hi => ?_⟩
    have := h2 i (by simpa using hi) (by omega)
    simp only [List.get_eq_getElem, List.getElem_range', Nat.one_mul] at this
    obtain ⟨w, k, h3, h4, h5⟩ := (key i _).1 this
    exact ⟨w, k, h3, h4, by rw [List.getElem?_eq_getElem (by omega), h5]⟩
  · rintro ⟨h1, h2⟩
    refine ⟨by simp [h1], fun i hi hi' => ?_⟩
    obtain ⟨w, k, h3, h4, h5⟩ := h2 i (by simpa using hi)
    simp only [List.get_eq_getElem, List.getElem_range', Nat.one_mul]
    refine (key i _).2 ⟨w, k, h3, h4, ?_⟩
    rw [List.getElem?_eq_getElem hi'] at h5
    exact Option.some.inj h5

/-- The two lines of a tetrahedron of a solid with `nb` points: its vertices and the name of its block. -/
def TetraLine (D : Type) [Num D] (es : List Nat) (nb : Nat) (l l2 : Str) (t : List Nat) (name : Str) : Prop :=
  Cell 4 l t ∧ (∀ v ∈ t, v < nb) ∧ Valued D es ((split l).drop 5) ∧ (split l2)[2]? = some name

/-- The line of a tetrahedron after the first one. -/
def isTetra (l : Str) : Bool := startsWith l cs!"TETRA"

/-- The lines of the tetrahedra, two by two, and what follows. -/
inductive Tetras (D : Type) [Num D] (es : List Nat) (nb : Nat) : File → List (List Nat) → List Str → File → Prop
  | last {l l2 t name rest} (h : TetraLine D es nb l l2 t name) (hr : ∀ x ∈ rest.head?, isTetra x = false) : Tetras D es nb (l :: l2 :: rest) [t] [name] rest
  | cons {l l2 l3 t name f ts names rest} (h : TetraLine D es nb l l2 t name) (h3 : isTetra l3 = true) (hr : Tetras D es nb (l3 :: f) ts names rest) :
      Tetras D es nb (l :: l2 :: l3 :: f) (t :: ts) (name :: names) rest

/-- What tetrahedra add to a solid. -/
structure Added (h : PropHeader D) (s s' : Solid D) (ts : List (List Nat)) (names : List Str) : Prop where
  points : s'.points = s.points
  ids : s'.ids = s.ids
  nb : s'.nbUnique = s.nbUnique
  vattrs : s'.vattrs = s.vattrs
  tetras : s'.tetras = s.tetras ++ ts
  names : s'.names = s.names ++ names
  filled : Filled h s'.tattrs s'.tetras.length

theorem Added.trans {h : PropHeader D} {a b c : Solid D} {t u : List (List Nat)} {n m : List Str} (h1 : Added h a b t n) (h2 : Added h b c u m) :
    Added h a c (t ++ u) (n ++ m) :=
  ⟨h2.points.trans h1.points, h2.ids.trans h1.ids, h2.nb.trans h1.nb, h2.vattrs.trans h1.vattrs, by rw [h2.tetras, h1.tetras, List.append_assoc],
    by rw [h2.names, h1.names, List.append_assoc], h2.filled⟩

theorem create_iff {nb : Nat} {t u : List Nat} : createCell nb t = .ok u ↔ u = t ∧ ∀ v ∈ t, v < nb := by
  unfold createCell
  split
  · rename_i h
    constructor
    · intro e; cases e; exact ⟨rfl, by simpa using h⟩
    · rintro ⟨rfl, _⟩; rfl
  · rename_i h
    constructor
    · intro e; cases e
    · rintro ⟨rfl, h'⟩; exact absurd (by simpa using h') h

theorem tetra_fwd {h : PropHeader D} {s s' : Solid D} {l l2 : Str} (hf : Filled h s.tattrs s.tetras.length) (e : readTetra h.esizes s l l2 = .ok s') :
    ∃ t name, TetraLine D h.esizes s.points.length l l2 t name ∧ Added h s s' [t] [name] := by
  unfold readTetra at e
  obtain ⟨vs, e1, e⟩ := bind_eq_ok.1 e
  obtain ⟨t, e2, e⟩ := bind_eq_ok.1 e
  obtain ⟨ta, e3, e⟩ := bind_eq_ok.1 e
  obtain ⟨name, e4, e⟩ := bind_eq_ok.1 e
  cases e
  obtain ⟨rfl, hb⟩ := create_iff.1 e2
  exact ⟨t, name, ⟨cell_iff.1 e1, hb, (properties_iff _ s.tattrs (hf.sizes.trans hf.cols.symm) _).1 ⟨ta, e3⟩, index_eq_ok.1 e4⟩, rfl, rfl, rfl, rfl, rfl, rfl,
    by simpa using filled_step hf e3⟩

theorem tetra_bwd {h : PropHeader D} {s : Solid D} {l l2 : Str} {t : List Nat} {name : Str} (hf : Filled h s.tattrs s.tetras.length)
    (ht : TetraLine D h.esizes s.points.length l l2 t name) : ∃ s', readTetra h.esizes s l l2 = .ok s' ∧ Added h s s' [t] [name] := by
  obtain ⟨h1, h2, h3, h4⟩ := ht
  obtain ⟨ta, hta⟩ := (properties_iff _ s.tattrs (hf.sizes.trans hf.cols.symm) _).2 h3
  unfold readTetra
  rw [cell_iff.2 h1, ok_bind, create_iff.2 ⟨rfl, h2⟩, ok_bind, hta, ok_bind, index_eq_ok.2 h4, ok_bind]
  exact ⟨_, rfl, rfl, rfl, rfl, rfl, rfl, rfl, by simpa using filled_step hf hta⟩

theorem tetra_empty {es : List Nat} {s s' : Solid D} {l : Str} : readTetra es s l [] ≠ .ok s' := by
  intro e
  unfold readTetra at e
  obtain ⟨vs, e1, e⟩ := bind_eq_ok.1 e
  obtain ⟨t, e2, e⟩ := bind_eq_ok.1 e
  obtain ⟨ta, e3, e⟩ := bind_eq_ok.1 e
  obtain ⟨name, e4, e⟩ := bind_eq_ok.1 e
  cases e4

theorem tetras_fwd {h : PropHeader D} : ∀ (n : Nat) {f : File} {l : Str} {s s' : Solid D} {r : Str × File}, f.length ≤ n → Filled h s.tattrs s.tetras.length →
    readTetras h.esizes s l f = .ok (s', r) → ∃ ts names rest, Tetras D h.esizes s.points.length (l :: f) ts names rest ∧ Added h s s' ts names ∧
      r = nextLine rest := by
  intro n
  induction n with
  | zero =>
    intro f l s s' r hn hf e
    cases f with
    | nil =>
      rw [readTetras] at e
      obtain ⟨s1, e1, e⟩ := bind_eq_ok.1 e
      exact absurd e1 tetra_empty
    | cons => simp at hn
  | succ n ih =>
    intro f l s s' r hn hf e
    match f, hn, e with
    | [], _, e =>
      rw [readTetras] at e
      obtain ⟨s1, e1, e⟩ := bind_eq_ok.1 e
      exact absurd e1 tetra_empty
    | [l2], _, e =>
      rw [readTetras] at e
      obtain ⟨s1, e1, e⟩ := bind_eq_ok.1 e
      cases e
      obtain ⟨t, name, h1, h2⟩ := tetra_fwd hf e1
      exact ⟨[t], [name], [], .last h1 (by simp), h2, rfl⟩
    | l2 :: l3 :: f, hn, e =>
      rw [readTetras] at e
      obtain ⟨s1, e1, e⟩ := bind_eq_ok.1 e
      obtain ⟨t, name, h1, h2⟩ := tetra_fwd hf e1
      split at e
      · rename_i h3
        obtain ⟨ts, names, rest, g1, g2, g3⟩ := ih (by simp at hn; omega) h2.filled e
        rw [h2.points] at g1
        exact ⟨t :: ts, name :: names, rest, .cons h1 h3 g1, h2.trans g2, g3⟩
      · rename_i h3
        cases e
        exact ⟨[t], [name], l3 :: f, .last h1 (by simpa [isTetra] using h3), h2, rfl⟩

theorem tetras_bwd {h : PropHeader D} {nb : Nat} {F : File} {ts : List (List Nat)} {names : List Str} {rest : File}
    (ht : Tetras D h.esizes nb F ts names rest) : ∀ {s : Solid D}, s.points.length = nb → Filled h s.tattrs s.tetras.length →
      ∃ s', readTetras h.esizes s (nextLine F).1 (nextLine F).2 = .ok (s', nextLine rest) ∧ Added h s s' ts names := by
  induction ht with
  | @last l l2 t name rest h1 hr =>
    intro s hnb hf
    subst hnb
    obtain ⟨s', e, ha⟩ := tetra_bwd hf h1
    refine ⟨s', ?_, ha⟩
    cases rest with
    | nil =>
      show readTetras h.esizes s l [l2] = _
      rw [readTetras, e]
      rfl
    | cons l3 f =>
      show readTetras h.esizes s l (l2 :: l3 :: f) = _
      rw [readTetras, e, ok_bind, if_neg (by rw [show startsWith l3 cs!"TETRA" = false from hr l3 (by simp)]; simp)]
      rfl
  | @cons l l2 l3 t name f ts names rest h1 h3 _ ih =>
    intro s hnb hf
    subst hnb
    obtain ⟨s1, e, ha⟩ := tetra_bwd hf h1
    obtain ⟨s', e2, hb⟩ := ih (s := s1) (by rw [ha.points]) ha.filled
    refine ⟨s', ?_, ha.trans hb⟩
    show readTetras h.esizes s l (l2 :: l3 :: f) = _
    rw [readTetras, e, ok_bind, if_pos (show startsWith l3 cs!"TETRA" = true from h3)]
    exact e2

theorem readTetras_nil {es : List Nat} {s : Solid D} {r : Solid D × Str × File} : readTetras es s [] [] ≠ .ok r := by
  intro e
  rw [readTetras] at e
  obtain ⟨s1, e1, e⟩ := bind_eq_ok.1 e
  exact absurd e1 tetra_empty

/-! ## Meshes of cells -/

/-- The vertices of cells, in the order in which they are met. -/
def verticesOf (cells : List (List Nat)) : List Nat := cells.flatten.eraseDups

/-- Cells with the places of their vertices in the mesh. -/
def placesOf (cells : List (List Nat)) : List (List Nat) := cells.map (List.map (verticesOf cells).idxOf)

theorem localVertex_dups (l : List Nat) (v : Nat) : (localVertex l.eraseDups v).1 = (l ++ [v]).eraseDups := by
  unfold localVertex
  rw [List.eraseDups_append]
  by_cases h : v ∈ l
  · have h1 : l.eraseDups.contains v = true := by simpa using h
    have h2 : [v].removeAll l = [] := by simp [List.removeAll, h]
    rw [if_pos h1, h2]
    simp
  · have h1 : ¬ l.eraseDups.contains v = true := by simpa using h
    have h2 : [v].removeAll l = [v] := by simp [List.removeAll, h]
    rw [if_neg h1, h2]
    simp [List.eraseDups_cons]

theorem localCell_dups (l vs : List Nat) : (localCell l.eraseDups vs).1 = (l ++ vs).eraseDups := by
  induction vs generalizing l with
  | nil => simp [localCell]
  | cons v vs ih =>
    show (localCell (localVertex l.eraseDups v).1 vs).1 = _
    rw [localVertex_dups, ih, List.append_assoc]
    rfl

theorem localCells_dups (l : List Nat) (ts : List (List Nat)) : (localCells l.eraseDups ts).1 = (l ++ ts.flatten).eraseDups := by
  induction ts generalizing l with
  | nil => simp [localCells]
  | cons t ts ih =>
    show (localCells (localCell l.eraseDups t).1 ts).1 = _
    rw [localCell_dups, ih, List.append_assoc, List.flatten_cons]

theorem localCells_eq (ts : List (List Nat)) : localCells [] ts = (verticesOf ts, placesOf ts) := by
  have h1 : (localCells [] ts).1 = verticesOf ts := by
    have := localCells_dups [] ts
    rwa [List.nil_append] at this
  have h2 := (localCells_spec (used := []) List.nodup_nil ts).2.2.2.1
  rw [h1] at h2
  exact Prod.ext h1 h2

/-! ## The lines of the surfaces -/

def isSurface (l : Str) : Bool := startsWith l cs!"SURFACE"

def isFace (l : Str) : Bool := startsWith l cs!"TFACE"

def isTriangle (l : Str) : Bool := startsWith l cs!"TRGL"

/-- The faces at the start of the lines: the triangles of each one, after its line and a line that is not read. -/
inductive Faces : File → List File → File → Prop
  | none {f} (h : ∀ l ∈ f.head?, isFace l = false) : Faces f [] f
  | cut {t} (h : isFace t = true) : Faces [t] [[]] []
  | face {t k trs f fs rest} (h : isFace t = true) (ht : ∀ l ∈ trs, isTriangle l = true) (hf : ∀ l ∈ f.head?, isTriangle l = false) (hr : Faces f fs rest) :
      Faces (t :: k :: (trs ++ f)) (trs :: fs) rest

/-- The surfaces at the start of the lines: the line of each one and its faces. -/
inductive Surfaces : File → List (Str × List File) → File → Prop
  | none {f} (h : ∀ l ∈ f.head?, isSurface l = false) : Surfaces f [] f
  | surface {s f fs g ss rest} (h : isSurface s = true) (hf : Faces f fs g) (hr : Surfaces g ss rest) : Surfaces (s :: f) ((s, fs) :: ss) rest

theorem take_drop (p : Str → Bool) (f : File) : f = f.takeWhile p ++ f.dropWhile p ∧ (∀ l ∈ f.takeWhile p, p l = true) ∧
    ∀ l ∈ (f.dropWhile p).head?, p l = false := by
  induction f with
  | nil => simp
  | cons x f ih =>
    cases hx : p x with
    | true =>
      rw [List.takeWhile_cons_of_pos hx, List.dropWhile_cons_of_pos hx]
      refine ⟨by rw [List.cons_append, ← ih.1], ?_, ih.2.2⟩
      intro l hl
      rcases List.mem_cons.1 hl with rfl | hl
      · exact hx
      · exact ih.2.1 l hl
    | false =>
      rw [List.takeWhile_cons_of_neg (by simp [hx]), List.dropWhile_cons_of_neg (by simp [hx])]
      exact ⟨rfl, by simp, by simpa using hx⟩

theorem faces_total (n : Nat) : ∀ f : File, f.length ≤ n → ∃ fs rest, Faces f fs rest ∧ rest.length ≤ f.length := by
  induction n with
  | zero =>
    intro f hf
    have : f = [] := List.length_eq_zero_iff.1 (by omega)
    subst this
    exact ⟨[], [], .none (by simp), Nat.le_refl _⟩
  | succ n ih =>
    intro f hf
    match f, hf with
    | [], _ => exact ⟨[], [], .none (by simp), Nat.le_refl _⟩
    | [t], _ =>
      cases ht : isFace t with
      | true => exact ⟨[[]], [], .cut ht, by simp⟩
      | false => exact ⟨[], [t], .none (by simpa using ht), Nat.le_refl _⟩
    | t :: k :: f, hf =>
      cases ht : isFace t with
      | true =>
        obtain ⟨h1, h2, h3⟩ := take_drop isTriangle f
        have hl : (f.dropWhile isTriangle).length ≤ f.length := by
          have := congrArg List.length h1
          rw [List.length_append] at this
          omega
        obtain ⟨fs, rest, h4, h5⟩ := ih (f.dropWhile isTriangle) (by simp at hf; omega)
        refine ⟨_ :: fs, rest, by rw [h1]; exact .face ht h2 h3 h4, by simp; omega⟩
      | false => exact ⟨[], t :: k :: f, .none (by simpa using ht), Nat.le_refl _⟩

theorem surfaces_total (n : Nat) : ∀ f : File, f.length ≤ n → ∃ ss rest, Surfaces f ss rest := by
  induction n with
  | zero =>
    intro f hf
    have : f = [] := List.length_eq_zero_iff.1 (by omega)
    subst this
    exact ⟨[], [], .none (by simp)⟩
  | succ n ih =>
    intro f hf
    cases f with
    | nil => exact ⟨[], [], .none (by simp)⟩
    | cons s f =>
      cases hs : isSurface s with
      | true =>
        obtain ⟨fs, g, h1, h2⟩ := faces_total f.length f (Nat.le_refl _)
        obtain ⟨ss, rest, h3⟩ := ih g (by simp at hf; omega)
        exact ⟨_, rest, .surface hs h1 h3⟩
      | false => exact ⟨[], s :: f, .none (by simpa using hs)⟩

/-! ## What the loop does -/

/-- A new surface of the last horizon. -/
def newFace (st : RState) : RState :=
  { st with surfaces := st.surfaces ++ [{ name := st.horizons.getLastD [], horizon := st.horizons.length - 1 }] }

def runFace (s : Solid D) (st : RState) (trs : File) : Res RState := Res.foldM' (readTriangle s) (newFace st) trs

def runSurface (s : Solid D) (st : RState) (e : Str × List File) : Res RState := do
  let _ ← Res.index (split e.1) 1
  Res.foldM' (runFace s) { st with horizons := st.horizons ++ [readName ((split e.1).drop 1)] } e.2

theorem loop_triangles (s : Solid D) (st : RState) (trs f : File) (h : ∀ l ∈ trs, isTriangle l = true) (hf : ∀ l ∈ f.head?, isTriangle l = false) :
    readSurfacesLoop s (st, .triangles) (trs ++ f) = Res.foldM' (readTriangle s) st trs >>= fun st => readSurfacesLoop s (st, .faces) f := by
  induction trs generalizing st with
  | nil =>
    rw [List.nil_append, foldM'_nil, ok_bind]
    cases f with
    | nil => rfl
    | cons l f =>
      have hl := hf l rfl
      rw [readSurfacesLoop, readSurfacesLoop, surfacesStep, surfacesStep, if_neg (by rw [show startsWith l cs!"TRGL" = false from hl]; exact Bool.false_ne_true)]
  | cons l trs ih =>
    rw [List.cons_append, readSurfacesLoop, surfacesStep, if_pos (show startsWith l cs!"TRGL" = true from h l (by simp)), foldM'_cons]
    rw [bind_assoc', bind_assoc']
    congr 1
    funext st'
    rw [pure_eq, ok_bind]
    exact ih st' fun x hx => h x (by simp [hx])

theorem face_not_surface {l : Str} (h : isFace l = true) : isSurface l = false := by
  obtain ⟨t, rfl⟩ := List.isPrefixOf_iff_prefix.1 h
  rfl

theorem loop_faces (s : Solid D) {f : File} {fs : List File} {g : File} (h : Faces f fs g) : ∀ st : RState,
    readSurfacesLoop s (st, .faces) f = Res.foldM' (runFace s) st fs >>= fun st => readSurfacesLoop s (st, .faces) g := by
  induction h with
  | none _ => intro st; rfl
  | cut h =>
    intro st
    rw [readSurfacesLoop, surfacesStep, faceLine, if_pos (show startsWith _ cs!"TFACE" = true from h)]
    rfl
  | @face t k trs f fs rest h ht hf _ ih =>
    intro st
    rw [readSurfacesLoop, surfacesStep, faceLine, if_pos (show startsWith _ cs!"TFACE" = true from h), ok_bind]
    dsimp only
    rw [readSurfacesLoop, surfacesStep, ok_bind]
    dsimp only
    rw [loop_triangles s _ trs f ht hf, foldM'_cons, bind_assoc']
    show _ = runFace s st trs >>= _
    unfold runFace newFace
    congr 1
    funext st'
    exact ih st'

theorem head_faces {f : File} {fs : List File} {g : File} (h : Faces f fs g) : ∀ l ∈ g.head?, isFace l = false := by
  induction h with
  | none h => exact h
  | cut _ => simp
  | face _ _ _ _ ih => exact ih

theorem loop_surfaces (s : Solid D) {f : File} {ss : List (Str × List File)} {g : File} (h : Surfaces f ss g) (hf : ∀ l ∈ f.head?, isFace l = false) :
    ∀ st : RState, readSurfacesLoop s (st, .faces) f = Res.foldM' (runSurface s) st ss >>= fun st => .ok (st, nextLine g) := by
  induction h with
  | @none f h =>
    intro st
    rw [foldM'_nil, ok_bind]
    cases f with
    | nil => rfl
    | cons l f =>
      rw [readSurfacesLoop, surfacesStep, faceLine, if_neg (by rw [show startsWith l cs!"TFACE" = false from hf l rfl]; exact Bool.false_ne_true), surfaceLine,
        if_neg (by rw [show startsWith l cs!"SURFACE" = false from h l rfl]; exact Bool.false_ne_true)]
      rfl
  | @surface x f fs g ss rest h hfa _ ih =>
    intro st
    rw [readSurfacesLoop, surfacesStep, faceLine, if_neg (by rw [show startsWith x cs!"TFACE" = false from hf x rfl]; exact Bool.false_ne_true), surfaceLine,
      if_pos (show startsWith x cs!"SURFACE" = true from h), foldM'_cons, runSurface]
    simp only [bind_assoc', ok_bind, pure_eq]
    congr 1
    funext w
    rw [loop_faces s hfa]
    congr 1
    funext st'
    exact ih (head_faces hfa) st'

theorem readSurfaces_eq (s : Solid D) {f : File} {l m : Str} {g : File} (hm : First cs!"MODEL" (l :: f) m g) {ss : List (Str × List File)} {rest : File}
    (hs : Surfaces g ss rest) : readSurfaces s l f = Res.foldM' (runSurface s) {} ss >>= fun st => .ok (st, nextLine rest) := by
  have key : (if startsWith l cs!"MODEL" then .ok f else (do
      let (_, f) ← gotoKeyword cs!"MODEL" f
      pure f) : Res File) = .ok g := by
    have h1 := goto_iff.2 hm
    unfold gotoKeyword at h1
    rw [gotoKeyword?] at h1
    split at h1
    · rename_i h2
      cases h1
      rw [if_pos h2]
    · rename_i h2
      rw [if_neg h2]
      show gotoKeyword cs!"MODEL" f >>= _ = _
      rw [show gotoKeyword cs!"MODEL" f = .ok (m, g) from h1]
      rfl
  unfold readSurfaces
  rw [key, ok_bind]
  cases hs with
  | none h =>
    rw [foldM'_nil, ok_bind]
    cases g with
    | nil => rfl
    | cons x g =>
      simp only [surfaceLine]
      rw [if_neg (by rw [show startsWith x cs!"SURFACE" = false from h x rfl]; exact Bool.false_ne_true)]
      rfl
  | @surface x f fs g ss rest h hfa hr =>
    simp only [surfaceLine]
    rw [if_pos (show startsWith x cs!"SURFACE" = true from h), foldM'_cons, runSurface]
    simp only [bind_assoc', ok_bind, pure_eq]
    congr 1
    funext w
    rw [loop_faces s hfa]
    congr 1
    funext st'
    exact loop_surfaces s hr (head_faces hfa) st'

/-! ## What the lines of the surfaces say -/

/-- The line of a triangle between points of a solid that have `nb` places. -/
def Triangle (nb : Nat) (l : Str) (t : List Nat) : Prop := Cell 3 l t ∧ ∀ v ∈ t, v < nb

/-- The name of a surface: the words after the first one. -/
def Named (l name : Str) : Prop := ∃ k w ws, split l = k :: w :: ws ∧ name = readName (w :: ws)

/-- A surface made of triangles. -/
def surfaceOf (name : Str) (horizon : Nat) (cells : List (List Nat)) : RSurface :=
  { name, horizon, vertices := verticesOf cells, triangles := placesOf cells }

/-- The horizons and surfaces of the lines, after `k` horizons. -/
def Meant (nb : Nat) : Nat → List (Str × List File) → List Str → List RSurface → Prop
  | _, [], hs, rs => hs = [] ∧ rs = []
  | k, (l, fs) :: ss, hs, rs => ∃ name cells hs' rs', Named l name ∧ List.Forall₂ (List.Forall₂ (Triangle nb)) fs cells ∧ hs = name :: hs' ∧
      rs = cells.map (surfaceOf name k) ++ rs' ∧ Meant nb (k + 1) ss hs' rs'

theorem cell_three {l : Str} {t : List Nat} (h : Cell 3 l t) : ∃ a b c, t = [a, b, c] := by
  rcases t with _ | ⟨a, _ | ⟨b, _ | ⟨c, _ | ⟨d, t⟩⟩⟩⟩
  · exact absurd h.1 (by simp)
  · exact absurd h.1 (by simp)
  · exact absurd h.1 (by simp)
  · exact ⟨a, b, c, rfl⟩
  · exact absurd h.1 (by simp)

theorem copies_iff {s : Solid D} {u : Nat} : (∃ r, copies s u = .ok r) ↔ u < s.nbUnique := by
  unfold copies
  split <;> simp [*]

theorem facets_iff {s : Solid D} {a b c : Nat} : (∃ fs, facetsFrom s [a, b, c] = .ok fs) ↔ ∀ v ∈ [a, b, c], v < s.nbUnique := by
  have h : facetsFrom s [a, b, c] = copies s a >>= fun as => copies s b >>= fun bs => copies s c >>= fun cs =>
      .ok ((as.flatMap fun a => bs.flatMap fun b => cs.map fun c => facetKey [a, b, c]).filter fun k => s.tetras.any fun t => (facets t).contains k) := rfl
  rw [h]
  constructor
  · rintro ⟨fs, e⟩
    obtain ⟨as, e1, e⟩ := bind_eq_ok.1 e
    obtain ⟨bs, e2, e⟩ := bind_eq_ok.1 e
    obtain ⟨cs, e3, e⟩ := bind_eq_ok.1 e
    have h1 := copies_iff.1 ⟨as, e1⟩
    have h2 := copies_iff.1 ⟨bs, e2⟩
    have h3 := copies_iff.1 ⟨cs, e3⟩
    simp [h1, h2, h3]
  · intro h
    obtain ⟨as, e1⟩ := copies_iff.2 (h a (by simp))
    obtain ⟨bs, e2⟩ := copies_iff.2 (h b (by simp))
    obtain ⟨cs, e3⟩ := copies_iff.2 (h c (by simp))
    rw [e1, ok_bind, e2, ok_bind, e3, ok_bind]
    exact ⟨_, rfl⟩

/-- The last surface with one more triangle. -/
def grow (cur : RSurface) (t : List Nat) : RSurface :=
  { cur with vertices := (localCell cur.vertices t).1, triangles := cur.triangles ++ [(localCell cur.vertices t).2] }

/-- The last surface is replaced. -/
structure Replaced (st st' : RState) (before : List RSurface) (cur : RSurface) : Prop where
  horizons : st'.horizons = st.horizons
  surfaces : st'.surfaces = before ++ [cur]

theorem triangle_fwd {s : Solid D} {st st' : RState} {l : Str} {before : List RSurface} {cur : RSurface} (hs : st.surfaces = before ++ [cur])
    (e : readTriangle s st l = .ok st') : ∃ t, Triangle s.nbUnique l t ∧ Replaced st st' before (grow cur t) := by
  unfold readTriangle at e
  obtain ⟨t, e1, e⟩ := bind_eq_ok.1 e
  obtain ⟨ps, e2, e⟩ := bind_eq_ok.1 e
  obtain ⟨fs, e3, e⟩ := bind_eq_ok.1 e
  have hc := cell_iff.1 e1
  obtain ⟨a, b, c, rfl⟩ := cell_three hc
  rw [hs] at e
  simp only [List.reverse_append, List.reverse_cons, List.reverse_nil, List.nil_append, List.singleton_append, List.reverse_reverse, pure_eq] at e
  have e := Res.ok.inj e
  subst e
  exact ⟨[a, b, c], ⟨hc, facets_iff.1 ⟨fs, e3⟩⟩, rfl, rfl⟩

theorem triangle_bwd {s : Solid D} (hnb : s.nbUnique ≤ s.points.length) {st : RState} {l : Str} {t : List Nat} {before : List RSurface} {cur : RSurface}
    (hs : st.surfaces = before ++ [cur]) (ht : Triangle s.nbUnique l t) :
    ∃ st', readTriangle s st l = .ok st' ∧ Replaced st st' before (grow cur t) := by
  obtain ⟨hc, hb⟩ := ht
  obtain ⟨a, b, c, rfl⟩ := cell_three hc
  obtain ⟨ps, e2, _⟩ := mapM'_total (f := Res.index s.points) (l := [a, b, c]) fun v hv => ⟨_, index_of_lt (Nat.lt_of_lt_of_le (hb v hv) hnb)⟩
  obtain ⟨fs, e3⟩ := facets_iff.2 hb
  unfold readTriangle
  rw [cell_iff.2 hc, ok_bind, e2, ok_bind, e3, ok_bind, hs]
  simp only [List.reverse_append, List.reverse_cons, List.reverse_nil, List.nil_append, List.singleton_append, List.reverse_reverse, pure_eq]
  exact ⟨_, rfl, rfl, rfl⟩

/-- The last surface with more triangles. -/
def growAll (cur : RSurface) (ts : List (List Nat)) : RSurface :=
  { cur with vertices := (localCells cur.vertices ts).1, triangles := cur.triangles ++ (localCells cur.vertices ts).2 }

theorem growAll_cons (cur : RSurface) (t : List Nat) (ts : List (List Nat)) : growAll cur (t :: ts) = growAll (grow cur t) ts := by
  unfold growAll grow
  rw [List.append_assoc]
  rfl

theorem triangles_fwd {s : Solid D} {before : List RSurface} {trs : File} : ∀ {st st' : RState} {cur : RSurface}, st.surfaces = before ++ [cur] →
    Res.foldM' (readTriangle s) st trs = .ok st' → ∃ ts, List.Forall₂ (Triangle s.nbUnique) trs ts ∧ Replaced st st' before (growAll cur ts) := by
  induction trs with
  | nil =>
    intro st st' cur hs e
    cases e
    refine ⟨[], .nil, rfl, ?_⟩
    rw [hs]
    simp [growAll, localCells]
  | cons l trs ih =>
    intro st st' cur hs e
    obtain ⟨st1, e1, e⟩ := bind_eq_ok.1 e
    obtain ⟨t, h1, h2⟩ := triangle_fwd hs e1
    obtain ⟨ts, h3, h4⟩ := ih h2.surfaces e
    exact ⟨t :: ts, .cons h1 h3, h4.horizons.trans h2.horizons, by rw [growAll_cons]; exact h4.surfaces⟩

theorem triangles_bwd {s : Solid D} (hnb : s.nbUnique ≤ s.points.length) {before : List RSurface} {trs : File} {ts : List (List Nat)}
    (h : List.Forall₂ (Triangle s.nbUnique) trs ts) : ∀ {st : RState} {cur : RSurface}, st.surfaces = before ++ [cur] →
      ∃ st', Res.foldM' (readTriangle s) st trs = .ok st' ∧ Replaced st st' before (growAll cur ts) := by
  induction h with
  | nil =>
    intro st cur hs
    refine ⟨st, rfl, rfl, ?_⟩
    rw [hs]
    simp [growAll, localCells]
  | cons h1 _ ih =>
    intro st cur hs
    obtain ⟨st1, e1, h2⟩ := triangle_bwd hnb hs h1
    obtain ⟨st', e2, h4⟩ := ih h2.surfaces
    exact ⟨st', by rw [foldM'_cons, e1, ok_bind, e2], h4.horizons.trans h2.horizons, by rw [growAll_cons]; exact h4.surfaces⟩

/-- What faces add. -/
structure Faced (st st' : RState) (rs : List RSurface) : Prop where
  horizons : st'.horizons = st.horizons
  surfaces : st'.surfaces = st.surfaces ++ rs

theorem grown_surface (name : Str) (k : Nat) (ts : List (List Nat)) : growAll { name, horizon := k } ts = surfaceOf name k ts := by
  unfold growAll surfaceOf
  show RSurface.mk name k (localCells [] ts).1 ([] ++ (localCells [] ts).2) = _
  rw [localCells_eq, List.nil_append]

theorem faces_fwd {s : Solid D} {name : Str} {k : Nat} {fs : List File} : ∀ {st st' : RState}, st.horizons.getLastD [] = name → st.horizons.length - 1 = k →
    Res.foldM' (runFace s) st fs = .ok st' → ∃ cells, List.Forall₂ (List.Forall₂ (Triangle s.nbUnique)) fs cells ∧
      Faced st st' (cells.map (surfaceOf name k)) := by
  induction fs with
  | nil =>
    intro st st' hn hk e
    cases e
    exact ⟨[], .nil, rfl, by simp⟩
  | cons trs fs ih =>
    intro st st' hn hk e
    obtain ⟨st1, e1, e⟩ := bind_eq_ok.1 e
    unfold runFace at e1
    obtain ⟨ts, h1, h2⟩ := triangles_fwd (st := newFace st) rfl e1
    rw [hn, hk, grown_surface] at h2
    have hh : st1.horizons = st.horizons := h2.horizons
    obtain ⟨cells, h3, h4⟩ := ih (by rw [hh, hn]) (by rw [hh, hk]) e
    refine ⟨ts :: cells, .cons h1 h3, h4.horizons.trans hh, ?_⟩
    rw [h4.surfaces, h2.surfaces, List.append_assoc]
    rfl

theorem faces_bwd {s : Solid D} (hnb : s.nbUnique ≤ s.points.length) {name : Str} {k : Nat} {fs : List File} {cells : List (List (List Nat))}
    (h : List.Forall₂ (List.Forall₂ (Triangle s.nbUnique)) fs cells) : ∀ {st : RState}, st.horizons.getLastD [] = name → st.horizons.length - 1 = k →
      ∃ st', Res.foldM' (runFace s) st fs = .ok st' ∧ Faced st st' (cells.map (surfaceOf name k)) := by
  induction h with
  | nil =>
    intro st hn hk
    exact ⟨st, rfl, rfl, by simp⟩
  | cons h1 _ ih =>
    intro st hn hk
    obtain ⟨st1, e1, h2⟩ := triangles_bwd hnb h1 (st := newFace st) rfl
    rw [hn, hk, grown_surface] at h2
    have hh : st1.horizons = st.horizons := h2.horizons
    obtain ⟨st', e2, h4⟩ := ih (st := st1) (by rw [hh, hn]) (by rw [hh, hk])
    refine ⟨st', by rw [foldM'_cons, runFace, e1, ok_bind, e2], h4.horizons.trans hh, ?_⟩
    rw [h4.surfaces, h2.surfaces, List.append_assoc]
    rfl

theorem named_iff {l name : Str} : (∃ w, Res.index (split l) 1 = .ok w) ∧ name = readName ((split l).drop 1) ↔ Named l name := by
  constructor
  · rintro ⟨⟨w, h⟩, rfl⟩
    rcases hs : split l with _ | ⟨k, _ | ⟨v, ws⟩⟩
    · rw [hs] at h; cases h
    · rw [hs] at h; cases h
    · exact ⟨k, v, ws, hs, rfl⟩
  · rintro ⟨k, w, ws, hs, rfl⟩
    rw [hs]
    exact ⟨⟨w, rfl⟩, rfl⟩

theorem surfaces_fwd {s : Solid D} {ss : List (Str × List File)} : ∀ {st st' : RState}, Res.foldM' (runSurface s) st ss = .ok st' →
    ∃ hs rs, Meant s.nbUnique st.horizons.length ss hs rs ∧ st'.horizons = st.horizons ++ hs ∧ st'.surfaces = st.surfaces ++ rs := by
  induction ss with
  | nil =>
    intro st st' e
    cases e
    exact ⟨[], [], ⟨rfl, rfl⟩, by simp, by simp⟩
  | cons e0 ss ih =>
    obtain ⟨l, fs⟩ := e0
    intro st st' e
    obtain ⟨st1, e1, e⟩ := bind_eq_ok.1 e
    unfold runSurface at e1
    obtain ⟨w, e2, e1⟩ := bind_eq_ok.1 e1
    obtain ⟨cells, h1, h2⟩ := faces_fwd (name := readName ((split l).drop 1)) (k := st.horizons.length) (by simp) (by simp) e1
    obtain ⟨hs, rs, h3, h4, h5⟩ := ih e
    have hh : st1.horizons = st.horizons ++ [readName ((split l).drop 1)] := h2.horizons
    rw [hh, List.length_append] at h3
    refine ⟨_ :: hs, cells.map (surfaceOf _ st.horizons.length) ++ rs,
      ⟨_, cells, hs, rs, named_iff.1 ⟨⟨w, e2⟩, rfl⟩, h1, rfl, rfl, h3⟩, by rw [h4, hh, List.append_assoc]; rfl, ?_⟩
    rw [h5, h2.surfaces, List.append_assoc]

theorem surfaces_bwd {s : Solid D} (hnb : s.nbUnique ≤ s.points.length) {ss : List (Str × List File)} : ∀ {st : RState} {hs : List Str} {rs : List RSurface},
    Meant s.nbUnique st.horizons.length ss hs rs →
      ∃ st', Res.foldM' (runSurface s) st ss = .ok st' ∧ st'.horizons = st.horizons ++ hs ∧ st'.surfaces = st.surfaces ++ rs := by
  induction ss with
  | nil =>
    rintro st hs rs ⟨rfl, rfl⟩
    exact ⟨st, rfl, by simp, by simp⟩
  | cons e0 ss ih =>
    obtain ⟨l, fs⟩ := e0
    rintro st _ _ ⟨name, cells, hs, rs, hn, h1, rfl, rfl, h3⟩
    obtain ⟨⟨w, e2⟩, hn⟩ := named_iff.2 hn
    subst hn
    obtain ⟨st1, e1, h2⟩ := faces_bwd hnb (name := readName ((split l).drop 1)) (k := st.horizons.length) h1
      (st := { st with horizons := st.horizons ++ [readName ((split l).drop 1)] }) (by simp) (by simp)
    have hh : st1.horizons = st.horizons ++ [readName ((split l).drop 1)] := h2.horizons
    obtain ⟨st', e3, h4, h5⟩ := ih (st := st1) (by rw [hh, List.length_append]; exact h3)
    refine ⟨st', ?_, by rw [h4, hh, List.append_assoc]; rfl, by rw [h5, h2.surfaces, List.append_assoc]⟩
    rw [foldM'_cons, runSurface, e2, ok_bind, e1, ok_bind, e3]

/-! ## Blocks -/

theorem forall₂_left {α β : Type} {R : α → β → Prop} {as : List α} {bs : List β} (h : List.Forall₂ R as bs) : ∀ a ∈ as, ∃ b, b ∈ bs ∧ R a b := by
  induction h with
  | nil => intro a ha; cases ha
  | cons h _ ih =>
    intro a ha
    rcases List.mem_cons.1 ha with rfl | ha
    · exact ⟨_, by simp, h⟩
    · obtain ⟨b, hb, hR⟩ := ih a ha
      exact ⟨b, by simp [hb], hR⟩

theorem itemsAt_iff {vals : List D} {n e i : Nat} (hv : vals.length = n * e) : (∃ r, itemsAt vals e i = .ok r) ↔ (0 < e → i < n) := by
  unfold itemsAt
  constructor
  · rintro ⟨r, h⟩ he
    rw [mapM'_iff] at h
    obtain ⟨b, _, hb⟩ := LsoOutcomes.forall₂_left h (i * e) (List.mem_range'_1.2 ⟨Nat.le_refl _, by omega⟩)
    have := (List.getElem?_eq_some_iff.1 (index_eq_ok.1 hb)).1
    rw [hv] at this
    exact Nat.lt_of_mul_lt_mul_right this
  · intro h
    rcases Nat.eq_zero_or_pos e with rfl | he
    · exact ⟨[], rfl⟩
    · obtain ⟨r, hr, _⟩ := mapM'_total (f := Res.index vals) (l := List.range' (i * e) e) (by
        intro j hj
        have hj := List.mem_range'_1.1 hj
        have : j < vals.length := by
          have : (i + 1) * e ≤ n * e := Nat.mul_le_mul_right e (h he)
          rw [Nat.succ_mul] at this
          omega
        exact ⟨_, index_of_lt this⟩)
      exact ⟨r, hr⟩

theorem attribute_iff {nb n : Nat} {s : Store D} (hs : StoreOk nb s) {name : Str} {e : Nat} {d : D} {vals : List D} (hv : vals.length = n * e) {inv : List Nat} :
    ((∃ s', createAttribute s name e d vals nb inv = .ok s') ↔ inv.length ≤ nb ∧ (0 < e → ∀ v ∈ inv, v < n)) ∧
      ∀ s', createAttribute s name e d vals nb inv = .ok s' → StoreOk nb s' := by
  unfold createAttribute
  have hc := findOrCreate_length hs name e d
  refine ⟨⟨?_, ?_⟩, ?_⟩
  · rintro ⟨s', h⟩
    obtain ⟨items, h1, h⟩ := bind_eq_ok.1 h
    obtain ⟨new, h2, h⟩ := bind_eq_ok.1 h
    have hl := (mapM'_iff.1 h1).length_eq
    unfold setFrom at h2
    split at h2
    · rename_i hle
      refine ⟨by omega, fun he v hv' => ?_⟩
      obtain ⟨b, _, hb⟩ := LsoOutcomes.forall₂_left (mapM'_iff.1 h1) v hv'
      exact (itemsAt_iff hv).1 ⟨b, hb⟩ he
    · cases h2
  · rintro ⟨h1, h2⟩
    obtain ⟨items, h3, h4⟩ := mapM'_total (f := itemsAt vals e) (l := inv) fun v hv' => (itemsAt_iff hv).2 fun he => h2 he v hv'
    rw [h3, ok_bind]
    unfold setFrom
    rw [if_pos (by omega), ok_bind]
    exact ⟨_, rfl⟩
  · intro s' h
    obtain ⟨items, h1, h⟩ := bind_eq_ok.1 h
    obtain ⟨new, h2, h⟩ := bind_eq_ok.1 h
    cases h
    refine putColumn_ok hs name ?_
    unfold setFrom at h2
    split at h2
    · cases h2
      simp only [List.length_append, List.length_drop]
      omega
    · cases h2

theorem attributes_iff' {nb n : Nat} {inv : List Nat} (names : List Str) : ∀ {s : Store D} {es : List Nat} {ds : List D} {vs : List (List D)}, StoreOk nb s →
    es.length = names.length → ds.length = names.length → vs.length = names.length →
    (∀ (i e : Nat) (v : List D), es[i]? = some e → vs[i]? = some v → v.length = n * e) →
    ((∃ s', createAttributes nb inv s names es ds vs = .ok s') ↔ (names ≠ [] → inv.length ≤ nb) ∧ ∀ e ∈ es, 0 < e → ∀ v ∈ inv, v < n) := by
  induction names with
  | nil =>
    intro s es ds vs hs h1 h2 h3 hv
    have : es = [] := List.length_eq_zero_iff.1 (by simpa using h1)
    subst this
    simp [createAttributes]
  | cons k ns ih =>
    intro s es ds vs hs h1 h2 h3 hv
    match es, ds, vs, h1, h2, h3 with
    | e :: es, d :: ds, v :: vs, h1, h2, h3 =>
      rw [createAttributes]
      obtain ⟨g1, g2⟩ := attribute_iff hs (name := k) (d := d) (inv := inv) (hv 0 e v rfl rfl)
      have hv' : ∀ (i e : Nat) (v : List D), es[i]? = some e → vs[i]? = some v → v.length = n * e :=
        fun i e' v' he hv' => hv (i + 1) e' v' (by simpa using he) (by simpa using hv')
      constructor
      · rintro ⟨s', h⟩
        obtain ⟨s1, e1, h⟩ := bind_eq_ok.1 h
        obtain ⟨h4, h5⟩ := g1.1 ⟨s1, e1⟩
        obtain ⟨_, h6⟩ := (ih (g2 s1 e1) (by simpa using h1) (by simpa using h2) (by simpa using h3) hv').1 ⟨s', h⟩
        refine ⟨fun _ => h4, fun x hx => ?_⟩
        rcases List.mem_cons.1 hx with rfl | hx
        · exact h5
        · exact h6 x hx
      · rintro ⟨h4, h5⟩
        obtain ⟨s1, e1⟩ := g1.2 ⟨h4 (by simp), h5 e (by simp)⟩
        obtain ⟨s', h⟩ := (ih (g2 s1 e1) (by simpa using h1) (by simpa using h2) (by simpa using h3) hv').2
          ⟨fun _ => h4 (by simp), fun x hx => h5 x (by simp [hx])⟩
        exact ⟨s', by rw [e1, ok_bind, h]⟩
    | [], _, _, h1, _, _ => simp at h1
    | _ :: _, [], _, _, h2, _ => simp at h2
    | _ :: _, _ :: _, [], _, _, h3 => simp at h3

theorem attributes_iff {h : PropHeader D} {vals : List (List D)} {n nb : Nat} {inv : List Nat} (hf : Filled h vals n) :
    (∃ s', blockAttributes h vals nb inv = .ok s') ↔ (h.names ≠ [] → inv.length ≤ nb) ∧ ∀ e ∈ h.esizes, 0 < e → ∀ v ∈ inv, v < n :=
  attributes_iff' h.names (fun _ hp => by cases hp) hf.sizes hf.noData hf.cols hf.lengths

/-- A block: its name, its vertices in the solid and its tetrahedra. -/
abbrev Block := Str × List Nat × List (List Nat)

/-- The tetrahedra with the name. -/
def named (ts : List (List Nat)) (names : List Str) (name : Str) : List (List Nat) := ((ts.zip names).filter fun e => e.2 = name).map Prod.fst

/-- The block of a line, in a solid with the given tetrahedra.  Since the values of the properties of the tetrahedra are stored with the vertices of the block,
there have to be enough tetrahedra when there is such a property: no fewer than vertices in the block, and more in the solid than the numbers of these vertices. -/
def Region (th : PropHeader D) (ts : List (List Nat)) (names : List Str) (l : Str) (b : Block) : Prop :=
  (split l)[1]? = some b.1 ∧ b.2.1 = verticesOf (named ts names b.1) ∧ b.2.2 = placesOf (named ts names b.1) ∧
    (th.names ≠ [] → b.2.1.length ≤ b.2.2.length) ∧ ∀ e ∈ th.esizes, 0 < e → ∀ v ∈ b.2.1, v < ts.length

/-- The solid that has been read: its properties have a value for each element, and its tetrahedra are made of its points. -/
structure Whole (vh th : PropHeader D) (s : Solid D) : Prop where
  vertices : Filled vh s.vattrs s.points.length
  tetras : Filled th s.tattrs s.tetras.length
  inside : ∀ t ∈ s.tetras, ∀ v ∈ t, v < s.points.length

theorem block_iff {vh th : PropHeader D} {s : Solid D} (hw : Whole vh th s) {st : RState} {l : Str} {b : Block} :
    (∃ r, readBlock ⟨vh, th⟩ s st l = .ok r ∧ (r.1.name, r.1.vertices, r.1.tetras) = b) ↔ Region th s.tetras s.names l b := by
  have hv : ∀ name, ∀ v ∈ verticesOf (named s.tetras s.names name), v < s.points.length := by
    intro name v hv
    obtain ⟨t, ht, hvt⟩ := List.mem_flatten.1 (by simpa [verticesOf] using hv)
    obtain ⟨e, he, rfl⟩ := List.mem_map.1 ht
    exact hw.inside e.1 (List.of_mem_zip (List.mem_filter.1 he).1).1 v hvt
  unfold readBlock
  constructor
  · rintro ⟨r, e, rfl⟩
    obtain ⟨name, e1, e⟩ := bind_eq_ok.1 e
    simp only [localCells_eq] at e
    obtain ⟨vs, _, e⟩ := bind_eq_ok.1 e
    obtain ⟨ts, e2, e⟩ := bind_eq_ok.1 e
    have h := (attributes_iff hw.tetras).1 ⟨ts, e2⟩
    cases e
    exact ⟨index_eq_ok.1 e1, rfl, rfl, h.1, h.2⟩
  · rintro ⟨h1, h2, h3, h4, h5⟩
    obtain ⟨name, vs, ts⟩ := b
    simp only at h1 h2 h3 h4 h5
    subst h2 h3
    obtain ⟨va, e1⟩ := (attributes_iff (nb := (verticesOf (named s.tetras s.names name)).length) (inv := verticesOf (named s.tetras s.names name)) hw.vertices).2
      ⟨fun _ => Nat.le_refl _, fun _ _ _ v hm => hv name v hm⟩
    obtain ⟨ta, e2⟩ := (attributes_iff hw.tetras).2 ⟨h4, h5⟩
    have hq : localCells [] (tetrasNamed s name) = (verticesOf (named s.tetras s.names name), placesOf (named s.tetras s.names name)) := localCells_eq _
    rw [index_eq_ok.2 h1, ok_bind]
    simp only [hq, e1, ok_bind, e2]
    exact ⟨_, rfl, rfl⟩

/-- The mesh of a block. -/
def blockOf (b : RBlock D) : Block := (b.name, b.vertices, b.tetras)

theorem blocks_iff {vh th : PropHeader D} {s : Solid D} (hw : Whole vh th s) {st : RState} (f : File) : ∀ {acc : List (RBlock D) × Bool} {bs : List Block},
    (∃ r, readBlocks ⟨vh, th⟩ s st acc (nextLine f).1 (nextLine f).2 = .ok r ∧ r.1.map blockOf = acc.1.map blockOf ++ bs) ↔
      List.Forall₂ (Region th s.tetras s.names) (f.takeWhile isRegion) bs := by
  induction f with
  | nil =>
    rintro ⟨acc, i⟩ bs
    rw [List.takeWhile_nil, List.forall₂_nil_left_iff]
    constructor
    · rintro ⟨r, e, h⟩
      cases e
      simpa using h
    · rintro rfl
      exact ⟨_, rfl, by simp⟩
  | cons l f ih =>
    rintro ⟨acc, i⟩ bs
    have step : readBlocks ⟨vh, th⟩ s st (acc, i) (nextLine (l :: f)).1 (nextLine (l :: f)).2 = if isRegion l then
        readBlock ⟨vh, th⟩ s st l >>= fun r => readBlocks ⟨vh, th⟩ s st (acc ++ [r.1], i || r.2) (nextLine f).1 (nextLine f).2 else .ok (acc, i) := by
      cases f with
      | nil =>
        show readBlocks _ s st (acc, i) l [] = _
        rw [readBlocks]
        rfl
      | cons x f =>
        show readBlocks _ s st (acc, i) l (x :: f) = _
        rw [readBlocks]
        rfl
    rw [step]
    cases hl : isRegion l with
    | true =>
      rw [List.takeWhile_cons_of_pos hl, if_pos rfl]
      constructor
      · rintro ⟨r, e, h⟩
        obtain ⟨b, e1, e2⟩ := bind_eq_ok.1 e
        obtain ⟨cs, hcs⟩ : ∃ cs, r.1.map blockOf = (acc ++ [b.1]).map blockOf ++ cs := by
          obtain ⟨cs, hc, _⟩ := LsoFile.readBlocks_is (bs' := r.1) (i' := r.2) e2
          exact ⟨cs.map blockOf, by rw [hc, List.map_append]⟩
        have hh := ih.1 ⟨r, e2, hcs⟩
        rw [h] at hcs
        simp only [List.map_append, List.map_cons, List.map_nil, List.append_assoc, List.append_cancel_left_eq] at hcs
        subst hcs
        exact .cons ((block_iff hw).1 ⟨b, e1, rfl⟩) hh
      · intro h
        cases h with
        | @cons _ b _ bs h1 h2 =>
          obtain ⟨r1, e1, rfl⟩ := (block_iff hw (st := st)).2 h1
          obtain ⟨r, e2, h3⟩ := (ih (acc := (acc ++ [r1.1], i || r1.2))).2 h2
          exact ⟨r, by rw [e1, ok_bind, e2], by rw [h3]; simp [blockOf]⟩
    | false =>
      rw [List.takeWhile_cons_of_neg (by simp [hl]), if_neg (by simp), List.forall₂_nil_left_iff]
      constructor
      · rintro ⟨r, e, h⟩
        cases e
        simpa using h
      · rintro rfl
        exact ⟨_, rfl, by simp⟩

/-! ## The whole file -/

/-- What is read from a file. -/
structure Content (D : Type) where
  name : Option Str
  points : List (Pt D)
  places : List Nat
  tetras : List (List Nat)
  names : List Str
  horizons : List Str
  surfaces : List RSurface
  blocks : List Block

def content (L : Loaded D) : Content D :=
  ⟨L.name, L.solid.points, L.solid.ids, L.solid.tetras, L.solid.names, L.horizons, L.surfaces, L.blocks.map blockOf⟩

/-- A file read as a model: the header, the coordinate system and the headers of properties follow the title; the vertices go from the first `VRTX` or `PVRTX`
line after them to the first line without `VRTX`; the tetrahedra follow them, after the indicators of the vertices if any; the surfaces follow the first `MODEL`
line after the tetrahedra and their indicators; the regions follow the surfaces. -/
structure Parts (D : Type) [Num D] (f : File) where
  title : Str
  body : File
  titled : First cs!"GOCAD LightTSolid" f title body
  name : Option Str
  afterHeader : File
  header : readHeader body = .ok (name, afterHeader)
  crs : Crs
  afterCrs : File
  system : readCrs afterHeader = .ok (crs, afterCrs)
  vh : PropHeader D
  afterVh : File
  vertexProperties : Header [] afterCrs vh afterVh
  th : PropHeader D
  afterTh : File
  tetraProperties : Header cs!"TETRA_" afterVh th afterTh
  vertex : Str
  afterVertex : File
  firstVertex : FirstVertex afterTh vertex afterVertex
  tetraLines : File
  skipped : Skip cs!"VERTEX" (afterVertex.dropWhile hasVrtx) tetraLines
  tetras : List (List Nat)
  names : List Str
  afterTetras : File
  tetrasRead : Tetras D th.esizes (afterVertex.takeWhile hasVrtx).length.succ tetraLines tetras names afterTetras
  beforeModel : File
  skipped' : Skip cs!"TETRA" afterTetras beforeModel
  model : Str
  surfaceLines : File
  modelled : First cs!"MODEL" beforeModel model surfaceLines
  surfaces : List (Str × List File)
  rest : File
  surfacesRead : Surfaces surfaceLines surfaces rest

/-- The lines of the vertices. -/
def Parts.vertexLines {f : File} (P : Parts D f) : File := P.vertex :: P.afterVertex.takeWhile hasVrtx

/-- The content of the parts of a file. -/
structure Parts.Gives {f : File} (P : Parts D f) (c : Content D) : Prop where
  name : c.name = P.name
  vertices : Vertices P.crs.zPos P.vh.esizes [] 0 P.vertexLines c.points c.places
  tetras : c.tetras = P.tetras
  names : c.names = P.names
  surfaces : Meant (own P.vertexLines) 0 P.surfaces c.horizons c.surfaces
  blocks : List.Forall₂ (Region P.th P.tetras P.names) (P.rest.takeWhile isRegion) c.blocks

theorem vertices_length {up : Bool} {es : List Nat} {ls : File} : ∀ {prev : List (Pt D)} {nb : Nat} {ps : List (Pt D)} {ids : List Nat},
    Vertices up es prev nb ls ps ids → ps.length = ls.length := by
  induction ls with
  | nil => rintro prev nb ps ids ⟨rfl, _⟩; rfl
  | cons l ls ih =>
    rintro prev nb _ _ ⟨p, id, ps, ids, rfl, rfl, _, h⟩
    simp [ih h]

theorem own_le (ls : File) : own ls ≤ ls.length := List.length_filter_le _ _

theorem tetras_inside {es : List Nat} {nb : Nat} {f : File} {ts : List (List Nat)} {names : List Str} {rest : File} (h : Tetras D es nb f ts names rest) :
    ∀ t ∈ ts, ∀ v ∈ t, v < nb := by
  induction h with
  | last h _ =>
    intro t ht
    rw [List.mem_singleton.1 ht]
    exact h.2.1
  | cons h _ _ ih =>
    intro t ht
    rcases List.mem_cons.1 ht with rfl | ht
    · exact h.2.1
    · exact ih t ht

theorem tetras_ne {es : List Nat} {nb : Nat} {f : File} {ts : List (List Nat)} {names : List Str} {rest : File} (h : Tetras D es nb f ts names rest) : f ≠ [] := by
  cases h <;> simp

/-- **C163, the LSO files that load**, and what they give. -/
theorem lso_loads_iff (f : File) (c : Content D) : (∃ L : Loaded D, loadLso f = .ok L ∧ content L = c) ↔ ∃ P : Parts D f, P.Gives c := by
  constructor
  · rintro ⟨L, e, rfl⟩
    unfold loadLso at e
    obtain ⟨⟨title, body⟩, e1, e⟩ := bind_eq_ok.1 e
    obtain ⟨⟨name, afterHeader⟩, e2, e⟩ := bind_eq_ok.1 e
    obtain ⟨⟨crs, afterCrs⟩, e3, e⟩ := bind_eq_ok.1 e
    obtain ⟨⟨vh, afterVh⟩, e4, e⟩ := bind_eq_ok.1 e
    obtain ⟨⟨th, afterTh⟩, e5, e⟩ := bind_eq_ok.1 e
    obtain ⟨⟨s, l, g⟩, e6, e⟩ := bind_eq_ok.1 e
    obtain ⟨⟨l1, g1⟩, e7, e⟩ := bind_eq_ok.1 e
    obtain ⟨⟨s', l2, g2⟩, e8, e⟩ := bind_eq_ok.1 e
    obtain ⟨⟨l3, g3⟩, e9, e⟩ := bind_eq_ok.1 e
    obtain ⟨⟨st, l4, g4⟩, e10, e⟩ := bind_eq_ok.1 e
    obtain ⟨⟨bs, i⟩, e11, e⟩ := bind_eq_ok.1 e
    have hv0 := header_lengths e4
    have ht0 := header_lengths e5
    obtain ⟨v, after, ps, ids, hfv, hvs, hg, hn⟩ := vertices_fwd (h := vh) (by simpa using hv0) e6
    have hn1 : l = (nextLine (after.dropWhile hasVrtx)).1 := congrArg Prod.fst hn
    have hn2 : g = (nextLine (after.dropWhile hasVrtx)).2 := congrArg Prod.snd hn
    rw [hn1, hn2] at e7
    obtain ⟨tl, hsk, hn⟩ := skip_fwd e7
    have hn1 : l1 = (nextLine tl).1 := congrArg Prod.fst hn
    have hn2 : g1 = (nextLine tl).2 := congrArg Prod.snd hn
    have htl : tl = l1 :: g1 := by
      cases tl with
      | nil => rw [hn1, hn2] at e8; exact absurd e8 readTetras_nil
      | cons a b => rw [hn1, hn2]; rfl
    subst htl
    have htf : Filled th s.tattrs s.tetras.length := by rw [hg.tattrs, hg.tetras]; simpa using ht0
    obtain ⟨ts, names, at_, hts, ha, hn⟩ := tetras_fwd _ (Nat.le_refl _) htf e8
    have hn1 : l2 = (nextLine at_).1 := congrArg Prod.fst hn
    have hn2 : g2 = (nextLine at_).2 := congrArg Prod.snd hn
    rw [hn1, hn2] at e9
    obtain ⟨bm, hsk', hn⟩ := skip_fwd e9
    have hn1 : l3 = (nextLine bm).1 := congrArg Prod.fst hn
    have hn2 : g3 = (nextLine bm).2 := congrArg Prod.snd hn
    rw [hn1, hn2] at e10
    have hpl : ps.length = (v :: after.takeWhile hasVrtx).length := vertices_length hvs
    have hsp : s'.points = ps := by rw [ha.points, hg.points]; rfl
    have hnb : s'.nbUnique = own (v :: after.takeWhile hasVrtx) := by rw [ha.nb, hg.nb]; exact Nat.zero_add _
    have htt : s'.tetras = ts := by rw [ha.tetras, hg.tetras]; rfl
    have hnn : s'.names = names := by rw [ha.names, hg.names]; rfl
    obtain ⟨m, sl, hm⟩ : ∃ m sl, First cs!"MODEL" bm m sl := by
      cases bm with
      | nil => cases e10
      | cons x bm =>
        cases hx : startsWith x cs!"MODEL" with
        | true => exact ⟨x, bm, [], rfl, hx, by simp⟩
        | false =>
          unfold readSurfaces at e10
          rw [show (nextLine (x :: bm)).1 = x from rfl, if_neg (by rw [hx]; exact Bool.false_ne_true)] at e10
          obtain ⟨y, e10, _⟩ := bind_eq_ok.1 e10
          obtain ⟨⟨m, sl⟩, e10, _⟩ := bind_eq_ok.1 e10
          obtain ⟨pre, h1, h2, h3⟩ := goto_iff.1 e10
          refine ⟨m, sl, x :: pre, by rw [List.cons_append, ← h1]; rfl, h2, ?_⟩
          intro z hz
          rcases List.mem_cons.1 hz with rfl | hz
          · exact hx
          · exact h3 z hz
    obtain ⟨ss, rest, hss⟩ := surfaces_total sl.length sl (Nat.le_refl _)
    have hbm : bm = (nextLine bm).1 :: (nextLine bm).2 := by
      cases bm with
      | nil => obtain ⟨pre, h1, _⟩ := hm; simp at h1
      | cons a b => rfl
    rw [hbm] at hm
    rw [readSurfaces_eq s' hm hss] at e10
    obtain ⟨st', e13, e12⟩ := bind_eq_ok.1 e10
    have e12 := Res.ok.inj e12
    have he1 : st' = st := congrArg Prod.fst e12
    subst he1
    have hn : nextLine rest = (l4, g4) := congrArg Prod.snd e12
    obtain ⟨hs, rs, hme, hh, hr⟩ := surfaces_fwd e13
    have hw : Whole vh th s' := ⟨by rw [ha.vattrs, ha.points]; exact hg.filled, ha.filled, by
      rw [htt, hsp, hpl]; exact (by
        have := tetras_inside hts
        rw [hg.points] at this
        simpa [hpl] using this)⟩
    have hb := (blocks_iff hw (st := st') rest (acc := ([], false)) (bs := bs.map blockOf)).1 ⟨(bs, i), by rw [hn]; exact e11, by simp⟩
    rw [htt, hnn] at hb
    rw [hnb] at hme
    have hts' : Tetras D th.esizes (after.takeWhile hasVrtx).length.succ (l1 :: g1) ts names at_ := by
      have h0 : s.points.length = (after.takeWhile hasVrtx).length.succ := by rw [hg.points]; simpa using hpl
      rw [← h0]
      exact hts
    cases e
    exact ⟨⟨title, body, goto_iff.1 e1, name, afterHeader, e2, crs, afterCrs, e3, vh, afterVh, (header_iff (by simp)).1 e4, th, afterTh,
      (header_iff (by decide)).1 e5, v, after, hfv, l1 :: g1, hsk, ts, names, at_, hts', bm, hsk', m, sl, by rw [hbm]; exact hm, ss, rest, hss⟩,
      rfl, by
        have : s'.ids = ids := by rw [ha.ids, hg.ids]; rfl
        show Vertices _ _ _ _ _ s'.points s'.ids
        rw [hsp, this]
        exact hvs, htt, hnn, by
        show Meant _ _ _ st'.horizons st'.surfaces
        rw [hh, hr]
        exact hme, hb⟩
  · rintro ⟨P, G⟩
    have hv0 := header_lengths ((header_iff (D := D) (by simp)).2 P.vertexProperties)
    have ht0 := header_lengths ((header_iff (D := D) (by decide)).2 P.tetraProperties)
    obtain ⟨s, e6, hg⟩ := vertices_bwd (h := P.vh) (s := noSolid P.vh P.th) (by simpa [noSolid] using hv0) P.firstVertex G.vertices
    have hpl := vertices_length G.vertices
    have hsl : s.points.length = (P.afterVertex.takeWhile hasVrtx).length.succ := by rw [hg.points]; simpa [noSolid, Parts.vertexLines] using hpl
    have htf : Filled P.th s.tattrs s.tetras.length := by rw [hg.tattrs, hg.tetras]; simpa [noSolid] using ht0
    obtain ⟨s', e8, ha⟩ := tetras_bwd P.tetrasRead hsl htf
    have hsp : s'.points = c.points := by rw [ha.points, hg.points]; rfl
    have hnb : s'.nbUnique = own P.vertexLines := by rw [ha.nb, hg.nb]; exact Nat.zero_add _
    have htt : s'.tetras = P.tetras := by rw [ha.tetras, hg.tetras]; rfl
    have hnn : s'.names = P.names := by rw [ha.names, hg.names]; rfl
    obtain ⟨st, e10, hh, hr⟩ := surfaces_bwd (s := s') (by rw [hnb, hsp, hpl]; exact own_le _) (ss := P.surfaces) (st := {}) (by rw [hnb]; exact G.surfaces)
    have hbm : P.beforeModel = (nextLine P.beforeModel).1 :: (nextLine P.beforeModel).2 := by
      cases hb : P.beforeModel with
      | nil => obtain ⟨pre, h1, _⟩ := P.modelled; rw [hb] at h1; simp at h1
      | cons a b => rfl
    have hw : Whole P.vh P.th s' := ⟨by rw [ha.vattrs, ha.points]; exact hg.filled, ha.filled, by
      rw [htt, ha.points, hsl]; exact tetras_inside P.tetrasRead⟩
    obtain ⟨⟨bs, i⟩, e11, hb⟩ := (blocks_iff hw (st := st) P.rest (acc := ([], false)) (bs := c.blocks)).2 (by rw [htt, hnn]; exact G.blocks)
    refine ⟨⟨P.name, s', st.horizons, st.surfaces, bs, st.inspect || i⟩, ?_, ?_⟩
    · unfold loadLso
      rw [goto_iff.2 P.titled, ok_bind]
      dsimp only
      rw [P.header, ok_bind]
      dsimp only
      rw [P.system, ok_bind]
      dsimp only
      rw [(header_iff (by simp)).2 P.vertexProperties, ok_bind]
      dsimp only
      rw [(header_iff (by decide)).2 P.tetraProperties, ok_bind]
      dsimp only
      rw [show ({ vattrs := P.vh.names.map fun _ => [], tattrs := P.th.names.map fun _ => [] } : Solid D) = noSolid P.vh P.th from rfl, e6, ok_bind]
      show (skipSection cs!"VERTEX" (nextLine (P.afterVertex.dropWhile hasVrtx)).1 (nextLine (P.afterVertex.dropWhile hasVrtx)).2 >>= _) = _
      rw [skip_bwd P.skipped, ok_bind]
      show (readTetras P.th.esizes s (nextLine P.tetraLines).1 (nextLine P.tetraLines).2 >>= _) = _
      rw [e8, ok_bind]
      show (skipSection cs!"TETRA" (nextLine P.afterTetras).1 (nextLine P.afterTetras).2 >>= _) = _
      rw [skip_bwd P.skipped', ok_bind]
      show (readSurfaces s' (nextLine P.beforeModel).1 (nextLine P.beforeModel).2 >>= _) = _
      rw [readSurfaces_eq s' (by rw [← hbm]; exact P.modelled) P.surfacesRead, e10, ok_bind, ok_bind]
      show (readBlocks ⟨P.vh, P.th⟩ s' st ([], false) (nextLine P.rest).1 (nextLine P.rest).2 >>= _) = _
      rw [e11, ok_bind]
      rfl
    · have hids : s'.ids = c.places := by rw [ha.ids, hg.ids]; rfl
      have hh' : st.horizons = c.horizons := by rw [hh]; rfl
      have hr' : st.surfaces = c.surfaces := by rw [hr]; rfl
      have hb' : bs.map blockOf = c.blocks := by simpa using hb
      unfold content
      simp only [hsp, hids, htt, hnn, hh', hr', hb', ← G.name, ← G.tetras, ← G.names]

/-- Two tetrahedra with a property of the points, a repeated point, indicators and a surface; the last line is not read. -/
def small : File :=
  [cs!"remark", cs!"GOCAD LightTSolid 1", cs!"HEADER {", cs!"name:m", cs!"}", cs!"PROPERTIES a", cs!"PROP_LEGAL_RANGES **none** **none**", cs!"NO_DATA_VALUES 9",
    cs!"PROPERTY_CLASSES a", cs!"PROPERTY_KINDS k", cs!"PROPERTY_SUBCLASSES q f", cs!"ESIZES 1", cs!"UNITS u", cs!"VRTX 1 0 0 0 5", cs!"VRTX 2 1 0 0 5",
    cs!"PVRTX 3 0 1 0 5", cs!"VRTX 4 0 0 1 5", cs!"SHAREDVRTX 5 1 6", cs!"BEGIN_VERTEX_REGION_INDICATORS", cs!"TETRA 1 2 3 4", cs!"END_VERTEX_REGION_INDICATORS",
    cs!"TETRA 1 2 3 4", cs!"# B up", cs!"TETRA 5 2 3 4", cs!"# B down", cs!"remark", cs!"MODEL", cs!"SURFACE top side", cs!"TFACE 1", cs!"KEYVERTICES 1 2 3",
    cs!"TRGL 2 3 4", cs!"MODEL_REGION up +1", cs!"MODEL_REGION down -1", cs!"END", cs!"MODEL_REGION up +1"]

theorem small_loads : (loadLso (D := Int) small >>= fun L => .ok (content L).blocks) =
    .ok [(cs!"up", [0, 1, 2, 3], [[0, 1, 2, 3]]), (cs!"down", [4, 1, 2, 3], [[0, 1, 2, 3]])] := by decide +kernel

/-- Not vacuous: this file has its parts (a test). -/
example : ∃ (P : Parts Int small) (c : Content Int), P.Gives c ∧ c.blocks.length = 2 := by
  obtain ⟨L, h1, h2⟩ := bind_eq_ok.1 small_loads
  obtain ⟨P, hP⟩ := (lso_loads_iff small (content L)).1 ⟨L, h1, rfl⟩
  exact ⟨P, _, hP, by rw [Res.ok.inj h2]; rfl⟩

/-- A triangle whose vertex has a place of another one does not load (a test): with its own number, 5, it does not. -/
example : loadLso (D := Int) (small.map fun l => if l = cs!"TRGL 2 3 4" then cs!"TRGL 2 3 5" else l) = .ub := by decide +kernel

end Verif.Props.LsoOutcomes
