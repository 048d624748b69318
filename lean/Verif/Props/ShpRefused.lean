import Verif.Props.Shp
import Verif.Lemmas.FirstBad

/-!
# C175: which shapefiles load, and which are refused

For every list of layers given by GDAL whose lines have less than 2^32 points: when it loads, when it is refused and when it has undefined
behaviour.  Theorems about `Model.Shp`.
-/

namespace Verif.Props.ShpRefused

open Verif Verif.Shp Res
open Verif.Props.Shp (partsOf lineFeature_eq)

variable {P : Type} [DecidableEq P]

/-- A fold of which each step succeeds, has undefined behaviour or throws. -/
theorem fold_cases {A S : Type} {g : S → A → Res S} {inv : S → List A → Prop} {fine short missing : A → Prop}
    (hstep : ∀ s a as, inv s (a :: as) → (fine a ∧ ∃ s', g s a = .ok s' ∧ inv s' as) ∨ (short a ∧ g s a = .ub) ∨ (missing a ∧ g s a = .throw)) :
    ∀ (l : List A) (s : S), inv s l → ((∀ a ∈ l, fine a) ∧ ∃ s', Res.foldM' g s l = .ok s') ∨
      (FirstBad fine short l ∧ Res.foldM' g s l = .ub) ∨ (FirstBad fine missing l ∧ Res.foldM' g s l = .throw) := by
  intro l
  induction l with
  | nil => intro s _; exact .inl ⟨by simp, s, rfl⟩
  | cons a l ih =>
    intro s h
    rw [foldM'_cons]
    rcases hstep s a l h with ⟨hf, s', e, hi⟩ | ⟨hf, e⟩ | ⟨hf, e⟩
    · rw [e, ok_bind]
      rcases ih s' hi with ⟨h1, h2⟩ | ⟨h1, h2⟩ | ⟨h1, h2⟩
      · exact .inl ⟨fun x hx => (List.mem_cons.1 hx).elim (fun e => e ▸ hf) (h1 x), h2⟩
      · exact .inr (.inl ⟨firstBad_cons.2 (.inr ⟨hf, h1⟩), h2⟩)
      · exact .inr (.inr ⟨firstBad_cons.2 (.inr ⟨hf, h1⟩), h2⟩)
    · rw [e, ub_bind]
      exact .inr (.inl ⟨firstBad_cons.2 (.inl hf), rfl⟩)
    · rw [e, throw_bind]
      exact .inr (.inr ⟨firstBad_cons.2 (.inl hf), rfl⟩)

/-! ## What a file has -/

/-- The rings of a feature of a layer of polygons. -/
def ringsOf : Option (Geometry P) → List (List P)
  | some (.polygon rings) => rings
  | some (.multiPolygon polygons) => polygons.flatten
  | _ => []

/-- A feature without geometry, in a layer of a known kind. -/
def Missing (k : Kind) (f : Option (Geometry P)) : Prop := k ≠ .other ∧ f = none

/-- A part of less than two points in a layer of lines, or a ring without point in a layer of polygons. -/
def Short (k : Kind) (f : Option (Geometry P)) : Prop :=
  (k = .line ∧ ∃ part ∈ partsOf f, part.length < 2) ∨ (k = .polygon ∧ [] ∈ ringsOf f)

/-- None of these. -/
def Fine (k : Kind) (f : Option (Geometry P)) : Prop := ¬ Missing k f ∧ ¬ Short k f

/-- The features of a file, each with the kind of its layer. -/
def features (layers : List (Layer P)) : List (Kind × Option (Geometry P)) := layers.flatMap fun l => l.features.map fun f => (l.kind, f)

/-- The points of a layer of lines are less than 2^32. -/
def Small (l : Layer P) : Prop := l.kind = .line → ((l.features.flatMap partsOf).map List.length).sum < W

/-! ## Features -/

theorem part_cases (r : Nat) (st : State P) (pts : List P) (hw : st.1.points.length + pts.length < W) :
    (2 ≤ pts.length ∧ ∃ st', readLine r st pts = .ok st' ∧ st'.1.points.length ≤ st.1.points.length + pts.length) ∨ (pts.length < 2 ∧ readLine r st pts = .ub) := by
  match pts, hw with
  | [], _ => exact .inr ⟨by simp, readLine_empty r st⟩
  | [p], hw => exact .inr ⟨by simp, readLine_single r st p (by simp at hw; omega)⟩
  | p :: q :: ps, hw =>
    refine .inl ⟨by simp, _, readLine_eq r st (by simp) hw, ?_⟩
    have : (distinct (p :: q :: ps)).length ≤ (p :: q :: ps).length := by rw [distinct_length]; split <;> omega
    simp only [List.length_append]
    omega

theorem ring_cases (tri : List P → List (List Nat)) (r : Nat) (st : State P) (pts : List P) :
    (pts ≠ [] ∧ ∃ st', readRing tri r st pts = .ok st') ∨ (pts = [] ∧ readRing tri r st pts = .ub) := by
  by_cases h : pts = []
  · subst h; exact .inr ⟨rfl, rfl⟩
  · exact .inl ⟨h, _, readRing_eq tri r st h⟩

theorem parts_cases (r : Nat) (parts : List (List P)) (st : State P) (hw : st.1.points.length + (parts.map List.length).sum < W) :
    ((∀ p ∈ parts, 2 ≤ p.length) ∧ ∃ st', Res.foldM' (readLine r) st parts = .ok st' ∧ st'.1.points.length ≤ st.1.points.length + (parts.map List.length).sum) ∨
    ((∃ p ∈ parts, p.length < 2) ∧ Res.foldM' (readLine r) st parts = .ub) := by
  induction parts generalizing st with
  | nil => exact .inl ⟨by simp, st, rfl, by simp⟩
  | cons p parts ih =>
    simp only [List.map_cons, List.sum_cons] at hw
    rw [foldM'_cons]
    rcases part_cases r st p (by omega) with ⟨h2, st', e, hl⟩ | ⟨h2, e⟩
    · rw [e, ok_bind]
      rcases ih st' (by omega) with ⟨h3, st2, e2, hl2⟩ | ⟨⟨q, hq, h3⟩, e2⟩
      · refine .inl ⟨fun q hq => (List.mem_cons.1 hq).elim (fun e => e ▸ h2) (h3 q), st2, e2, ?_⟩
        simp only [List.map_cons, List.sum_cons]
        omega
      · exact .inr ⟨⟨q, List.mem_cons_of_mem _ hq, h3⟩, e2⟩
    · exact .inr ⟨⟨p, List.mem_cons_self, h2⟩, by rw [e, ub_bind]⟩

theorem rings_cases (tri : List P → List (List Nat)) (r : Nat) (rings : List (List P)) (st : State P) :
    ([] ∉ rings ∧ ∃ st', Res.foldM' (readRing tri r) st rings = .ok st') ∨ ([] ∈ rings ∧ Res.foldM' (readRing tri r) st rings = .ub) := by
  induction rings generalizing st with
  | nil => exact .inl ⟨by simp, st, rfl⟩
  | cons p rings ih =>
    rw [foldM'_cons]
    rcases ring_cases tri r st p with ⟨h, st', e⟩ | ⟨rfl, e⟩
    · rw [e, ok_bind]
      rcases ih st' with ⟨h2, h3⟩ | ⟨h2, h3⟩
      · exact .inl ⟨fun hm => (List.mem_cons.1 hm).elim (fun e => h e.symm) h2, h3⟩
      · exact .inr ⟨List.mem_cons_of_mem _ h2, h3⟩
    · exact .inr ⟨List.mem_cons_self, by rw [e, ub_bind]⟩

theorem foldM'_flatten {A S : Type} {g : S → A → Res S} (ls : List (List A)) (s : S) :
    Res.foldM' (fun s l => Res.foldM' g s l) s ls = Res.foldM' g s ls.flatten := by
  induction ls generalizing s with
  | nil => rfl
  | cons l ls ih =>
    rw [foldM'_cons, List.flatten_cons, foldM'_append]
    congr 1
    funext s'
    exact ih s'

theorem surfaceFeature_eq (tri : List P → List (List Nat)) (r : Nat) (st : State P) {f : Option (Geometry P)} (h : f ≠ none) :
    surfaceFeature tri r st f = Res.foldM' (readRing tri r) st (ringsOf f) := by
  match f, h with
  | some (.polygon _), _ => rfl
  | some (.multiPolygon polygons), _ => exact foldM'_flatten polygons st
  | some (.point _), _ => rfl
  | some (.line _), _ => rfl
  | some (.multiLine _), _ => rfl
  | some .other, _ => rfl

/-- The three outcomes of a layer. -/
theorem layer_cases (tri : List P → List (List Nat)) (s : Section P) {l : Layer P} (hs : Small l) :
    ((∀ f ∈ l.features, Fine l.kind f) ∧ ∃ s', readLayer tri s l = .ok s') ∨ (FirstBad (Fine l.kind) (Short l.kind) l.features ∧ readLayer tri s l = .ub) ∨
    (FirstBad (Fine l.kind) (Missing l.kind) l.features ∧ readLayer tri s l = .throw) := by
  have close : ∀ {g : State P → Option (Geometry P) → Res (State P)} {st : State P} {k : State P → Section P},
      readLayer tri s l = (Res.foldM' g st l.features >>= fun st => pure (k st)) →
      (((∀ f ∈ l.features, Fine l.kind f) ∧ ∃ s', Res.foldM' g st l.features = .ok s') ∨
        (FirstBad (Fine l.kind) (Short l.kind) l.features ∧ Res.foldM' g st l.features = .ub) ∨
        (FirstBad (Fine l.kind) (Missing l.kind) l.features ∧ Res.foldM' g st l.features = .throw)) →
      ((∀ f ∈ l.features, Fine l.kind f) ∧ ∃ s', readLayer tri s l = .ok s') ∨ (FirstBad (Fine l.kind) (Short l.kind) l.features ∧ readLayer tri s l = .ub) ∨
      (FirstBad (Fine l.kind) (Missing l.kind) l.features ∧ readLayer tri s l = .throw) := by
    intro g st k e h
    rw [e]
    rcases h with ⟨h, s', h'⟩ | ⟨h, h'⟩ | ⟨h, h'⟩
    · exact .inl ⟨h, k s', by rw [h']; rfl⟩
    · exact .inr (.inl ⟨h, by rw [h']; rfl⟩)
    · exact .inr (.inr ⟨h, by rw [h']; rfl⟩)
  cases hk : l.kind with
  | other =>
    refine .inl ⟨fun f _ => ⟨fun h => h.1 rfl, ?_⟩, s, by unfold readLayer; rw [hk]⟩
    rintro (⟨h, -⟩ | ⟨h, -⟩) <;> cases h
  | point =>
    rw [← hk]
    refine close (g := cornerFeature s.corners.length) (st := ({}, s.uniques)) (k := fun st => { s with corners := s.corners ++ [(l.name, st.1)], uniques := st.2 })
      (by unfold readLayer; rw [hk]) ?_
    refine fold_cases (inv := fun _ _ => True) ?_ _ _ trivial
    rintro st (_ | f) as -
    · exact .inr (.inr ⟨⟨by rw [hk]; simp, rfl⟩, rfl⟩)
    · refine .inl ⟨⟨fun h => (by cases h.2), ?_⟩, ?_⟩
      · rw [hk]
        rintro (⟨h, -⟩ | ⟨h, -⟩) <;> cases h
      · cases f <;> exact ⟨_, rfl, trivial⟩
  | line =>
    rw [← hk]
    refine close (g := lineFeature s.lines.length) (st := ({}, s.uniques)) (k := fun st => { s with lines := s.lines ++ [(l.name, st.1)], uniques := st.2 })
      (by unfold readLayer; rw [hk]) ?_
    refine fold_cases (inv := fun st fs => st.1.points.length + ((fs.flatMap partsOf).map List.length).sum < W) ?_ _ _ (by simpa using hs hk)
    rintro st f as hw
    simp only [List.flatMap_cons, List.map_append, List.sum_append] at hw
    by_cases hf : f = none
    · subst hf
      exact .inr (.inr ⟨⟨by rw [hk]; simp, rfl⟩, rfl⟩)
    · rw [lineFeature_eq _ _ hf]
      rcases parts_cases s.lines.length (partsOf f) st (by omega) with ⟨h1, st', e, hl⟩ | ⟨h1, e⟩
      · refine .inl ⟨⟨fun h => hf h.2, ?_⟩, st', e, by omega⟩
        rintro (⟨-, p, hp, h⟩ | ⟨h, -⟩)
        · have := h1 p hp; omega
        · rw [hk] at h; cases h
      · exact .inr (.inl ⟨.inl ⟨hk, h1⟩, e⟩)
  | polygon =>
    rw [← hk]
    refine close (g := surfaceFeature tri s.surfaces.length) (st := ({}, s.uniques)) (k := fun st => { s with surfaces := s.surfaces ++ [(l.name, st.1)], uniques := st.2 })
      (by unfold readLayer; rw [hk]) ?_
    refine fold_cases (inv := fun _ _ => True) ?_ _ _ trivial
    rintro st f as -
    by_cases hf : f = none
    · subst hf
      exact .inr (.inr ⟨⟨by rw [hk]; simp, rfl⟩, rfl⟩)
    · rw [surfaceFeature_eq _ _ _ hf]
      rcases rings_cases tri s.surfaces.length (ringsOf f) st with ⟨h1, st', e⟩ | ⟨h1, e⟩
      · refine .inl ⟨⟨fun h => hf h.2, ?_⟩, st', e, trivial⟩
        rintro (⟨h, -⟩ | ⟨-, h⟩)
        · rw [hk] at h; cases h
        · exact h1 h
      · exact .inr (.inl ⟨.inr ⟨hk, h1⟩, e⟩)

/-! ## Files -/

theorem firstBad_flatMap {A B : Type} {fine wrong : B → Prop} {g : A → List B} {xs : List A} :
    FirstBad (fun a => ∀ b ∈ g a, fine b) (fun a => FirstBad fine wrong (g a)) xs ↔ FirstBad fine wrong (xs.flatMap g) := by
  induction xs with
  | nil => simp [firstBad_nil]
  | cons x xs ih => rw [firstBad_cons, List.flatMap_cons, firstBad_append, ih]

theorem load_cases (tri : List P → List (List Nat)) {layers : List (Layer P)} (hs : ∀ l ∈ layers, Small l) :
    ((∀ x ∈ features layers, Fine x.1 x.2) ∧ ∃ s, loadShp tri layers = .ok s) ∨
    (FirstBad (fun x => Fine x.1 x.2) (fun x => Short x.1 x.2) (features layers) ∧ loadShp tri layers = .ub) ∨
    (FirstBad (fun x => Fine x.1 x.2) (fun x => Missing x.1 x.2) (features layers) ∧ loadShp tri layers = .throw) := by
  have key := fold_cases (g := readLayer tri) (inv := fun _ ls => ∀ l ∈ ls, Small l)
    (fine := fun l : Layer P => ∀ x ∈ l.features.map fun f => (l.kind, f), Fine x.1 x.2)
    (short := fun l : Layer P => FirstBad (fun x : Kind × Option (Geometry P) => Fine x.1 x.2) (fun x => Short x.1 x.2) (l.features.map fun f => (l.kind, f)))
    (missing := fun l : Layer P => FirstBad (fun x : Kind × Option (Geometry P) => Fine x.1 x.2) (fun x => Missing x.1 x.2) (l.features.map fun f => (l.kind, f)))
    (by
      intro s l ls h
      rcases layer_cases tri s (h l List.mem_cons_self) with ⟨h1, s', e⟩ | ⟨h1, e⟩ | ⟨h1, e⟩
      · refine .inl ⟨?_, s', e, fun l' h' => h l' (List.mem_cons_of_mem _ h')⟩
        intro x hx
        obtain ⟨f, hf, rfl⟩ := List.mem_map.1 hx
        exact h1 f hf
      · exact .inr (.inl ⟨firstBad_map.2 h1, e⟩)
      · exact .inr (.inr ⟨firstBad_map.2 h1, e⟩)) layers {} hs
  rcases key with ⟨h, e⟩ | ⟨h, e⟩ | ⟨h, e⟩
  · refine .inl ⟨fun x hx => ?_, e⟩
    obtain ⟨l, hl, hx⟩ := List.mem_flatMap.1 hx
    exact h l hl x hx
  · exact .inr (.inl ⟨firstBad_flatMap.1 h, e⟩)
  · exact .inr (.inr ⟨firstBad_flatMap.1 h, e⟩)

omit [DecidableEq P] in
theorem not_fine_of_short {k : Kind} {f : Option (Geometry P)} (h : Short k f) : ¬ Fine k f := fun h' => h'.2 h

omit [DecidableEq P] in
theorem not_fine_of_missing {k : Kind} {f : Option (Geometry P)} (h : Missing k f) : ¬ Fine k f := fun h' => h'.1 h

omit [DecidableEq P] in
theorem not_missing_of_short {k : Kind} {f : Option (Geometry P)} (h : Short k f) : ¬ Missing k f := by
  rintro ⟨-, rfl⟩
  rcases h with ⟨-, p, hp, -⟩ | ⟨-, hp⟩
  · cases hp
  · cases hp

/-- **C175, the files that load**: every feature of the known layers has a geometry, every part of the lines two points and every ring one. -/
theorem shp_loads_iff (tri : List P → List (List Nat)) {layers : List (Layer P)} (hs : ∀ l ∈ layers, Small l) :
    (∃ s, loadShp tri layers = .ok s) ↔ ∀ x ∈ features layers, Fine x.1 x.2 := by
  rcases load_cases tri hs with ⟨h, e⟩ | ⟨h, e⟩ | ⟨h, e⟩
  · exact ⟨fun _ => h, fun _ => e⟩
  · exact ⟨fun ⟨s, e'⟩ => (by rw [e] at e'; cases e'), fun ha => absurd ha (firstBad_not_all (fun x h => not_fine_of_short h) h)⟩
  · exact ⟨fun ⟨s, e'⟩ => (by rw [e] at e'; cases e'), fun ha => absurd ha (firstBad_not_all (fun x h => not_fine_of_missing h) h)⟩

/-- **C175, undefined behaviour**: the first feature at fault has a short part. -/
theorem shp_ub_iff (tri : List P → List (List Nat)) {layers : List (Layer P)} (hs : ∀ l ∈ layers, Small l) :
    loadShp tri layers = .ub ↔ FirstBad (fun x => Fine x.1 x.2) (fun x => Short x.1 x.2) (features layers) := by
  rcases load_cases tri hs with ⟨h, s, e⟩ | ⟨h, e⟩ | ⟨h, e⟩
  · exact ⟨fun e' => (by rw [e] at e'; cases e'), fun ha => absurd h (firstBad_not_all (fun x h => not_fine_of_short h) ha)⟩
  · exact ⟨fun _ => h, fun _ => e⟩
  · exact ⟨fun e' => (by rw [e] at e'; cases e'), fun ha =>
      absurd h (firstBad_clash (fun x h => not_fine_of_short h) (fun x h => not_fine_of_missing h) (fun x h => not_missing_of_short h) ha)⟩

/-- **C175, the files that are refused**: the first feature at fault has no geometry. -/
theorem shp_throw_iff (tri : List P → List (List Nat)) {layers : List (Layer P)} (hs : ∀ l ∈ layers, Small l) :
    loadShp tri layers = .throw ↔ FirstBad (fun x => Fine x.1 x.2) (fun x => Missing x.1 x.2) (features layers) := by
  rcases load_cases tri hs with ⟨h, s, e⟩ | ⟨h, e⟩ | ⟨h, e⟩
  · exact ⟨fun e' => (by rw [e] at e'; cases e'), fun ha => absurd h (firstBad_not_all (fun x h => not_fine_of_missing h) ha)⟩
  · exact ⟨fun e' => (by rw [e] at e'; cases e'), fun ha =>
      absurd ha (firstBad_clash (fun x h => not_fine_of_short h) (fun x h => not_fine_of_missing h) (fun x h => not_missing_of_short h) h)⟩
  · exact ⟨fun _ => h, fun _ => e⟩

/-- A shapefile that does not load is refused. -/
def Refused (P : Type) [DecidableEq P] : Prop := ∀ (tri : List P → List (List Nat)) (layers : List (Layer P)), (∀ l ∈ layers, Small l) →
  (∃ s, loadShp tri layers = .ok s) ∨ loadShp tri layers = .throw

/-- **C175 fails**: a line of one point is not refused. -/
theorem refused_fails : ¬ Refused Nat := by
  intro h
  have hs : ∀ l ∈ [(⟨cs!"a", .line, [some (.line [3])]⟩ : Layer Nat)], Small l := by
    intro l hl _
    rw [List.mem_singleton.1 hl]
    decide
  have e : loadShp (fun _ => []) [(⟨cs!"a", .line, [some (.line [3])]⟩ : Layer Nat)] = .ub := by
    rw [shp_ub_iff _ hs]
    exact ⟨[], _, [], rfl, by simp, .inl ⟨rfl, [3], List.mem_cons_self, by decide⟩⟩
  rcases h (fun _ => []) _ hs with ⟨s, e'⟩ | e' <;> rw [e] at e' <;> cases e'

/-- **C175**: files without short part that do not load are refused. -/
theorem refused_partial (tri : List P → List (List Nat)) {layers : List (Layer P)} (hs : ∀ l ∈ layers, Small l) (h : ∀ x ∈ features layers, ¬ Short x.1 x.2) :
    (∃ s, loadShp tri layers = .ok s) ∨ loadShp tri layers = .throw := by
  rcases load_cases tri hs with ⟨-, e⟩ | ⟨hb, -⟩ | ⟨-, e⟩
  · exact .inl e
  · obtain ⟨x, hx, hb⟩ := firstBad_exists hb
    exact absurd hb (h x hx)
  · exact .inr e

/-- A layer of two lines and a layer of points satisfy the conditions. -/
example : ∃ s, loadShp (fun _ => []) [(⟨cs!"a", .line, [some (.line [3, 4]), some (.multiLine [[1, 2, 1]])]⟩ : Layer Nat), ⟨cs!"b", .point, [some (.point 1)]⟩] = .ok s := by
  refine (shp_loads_iff _ ?_).2 ?_
  · intro l hl
    simp only [List.mem_cons, List.not_mem_nil, or_false] at hl
    rcases hl with rfl | rfl
    · intro _; decide
    · intro h; cases h
  · intro x hx
    simp only [features, List.flatMap_cons, List.flatMap_nil, List.map_cons, List.map_nil, List.append_nil, List.cons_append, List.nil_append, List.mem_cons,
      List.not_mem_nil, or_false] at hx
    rcases hx with rfl | rfl | rfl
    · refine ⟨fun h => (by cases h.2), ?_⟩
      rintro (⟨-, p, hp, hl⟩ | ⟨h, -⟩)
      · rw [show p = [3, 4] from List.mem_singleton.1 hp] at hl
        exact absurd hl (by decide)
      · cases h
    · refine ⟨fun h => (by cases h.2), ?_⟩
      rintro (⟨-, p, hp, hl⟩ | ⟨h, -⟩)
      · rw [show p = [1, 2, 1] from List.mem_singleton.1 hp] at hl
        exact absurd hl (by decide)
      · cases h
    · refine ⟨fun h => (by cases h.2), ?_⟩
      rintro (⟨h, -⟩ | ⟨h, -⟩) <;> cases h

end Verif.Props.ShpRefused
