import Verif.Props.Geos
import Verif.Lemmas.FirstBad

/-!
# C176: which exports for GEOS are made, and which are refused

For every model, every solid it is converted into and all requests: when the export is made, when it is refused and when it has undefined
behaviour.  Theorems about `Model.Geos`.
-/

namespace Verif.Props.GeosRefused

open Verif Verif.Sides Verif.Geos Res
open Verif.Props.Geos (Converted request requested isDefined_iff find_unitRegions find_brepRegions)

variable {D : Type}

/-! ## Maps -/

/-- A map of which each step succeeds, has undefined behaviour or throws. -/
theorem map_cases {A B : Type} {g : A → Res B} {fine wrong refused : A → Prop} :
    ∀ (l : List A), (∀ a ∈ l, (fine a ∧ ∃ b, g a = .ok b) ∨ (wrong a ∧ g a = .ub) ∨ (refused a ∧ g a = .throw)) →
      ((∀ a ∈ l, fine a) ∧ ∃ bs, Res.mapM' g l = .ok bs) ∨ (FirstBad fine wrong l ∧ Res.mapM' g l = .ub) ∨ (FirstBad fine refused l ∧ Res.mapM' g l = .throw) := by
  intro l
  induction l with
  | nil => intro _; exact .inl ⟨by simp, [], rfl⟩
  | cons a l ih =>
    intro h
    rw [mapM'_cons]
    rcases h a List.mem_cons_self with ⟨hf, b, e⟩ | ⟨hf, e⟩ | ⟨hf, e⟩
    · rw [e, ok_bind]
      rcases ih fun x hx => h x (List.mem_cons_of_mem _ hx) with ⟨h1, bs, h2⟩ | ⟨h1, h2⟩ | ⟨h1, h2⟩
      · exact .inl ⟨fun x hx => (List.mem_cons.1 hx).elim (fun e => e ▸ hf) (h1 x), b :: bs, by rw [h2]; rfl⟩
      · exact .inr (.inl ⟨firstBad_cons.2 (.inr ⟨hf, h1⟩), by rw [h2]; rfl⟩)
      · exact .inr (.inr ⟨firstBad_cons.2 (.inr ⟨hf, h1⟩), by rw [h2]; rfl⟩)
    · rw [e, ub_bind]
      exact .inr (.inl ⟨firstBad_cons.2 (.inl hf), rfl⟩)
    · rw [e, throw_bind]
      exact .inr (.inr ⟨firstBad_cons.2 (.inl hf), rfl⟩)

/-! ## Properties -/

/-- The block of a polyhedron of the solid has a property with this name and this number of components. -/
def Has (m : Model D) (c : Nat × Nat) (dim : Nat) (name : Str) : Prop := ∃ b ∈ m.blocks, b.id = c.1 ∧ ∃ a ∈ b.attrs, a.name = name ∧ a.dim = dim

/-- A sound model: its blocks have different identifiers, their properties different names, and one value for each polyhedron. -/
structure Sound (m : Model D) : Prop where
  ids : (m.blocks.map Block.id).Nodup
  names : ∀ b ∈ m.blocks, (b.attrs.map Attr.name).Nodup
  values : ∀ b ∈ m.blocks, ∀ a ∈ b.attrs, a.values.length = b.nb

theorem find_of_key {A K : Type} [DecidableEq K] {key : A → K} : ∀ {l : List A}, (l.map key).Nodup → ∀ {a : A} {k : K}, a ∈ l → key a = k →
    (l.find? fun x => key x = k) = some a := by
  intro l
  induction l with
  | nil => intro _ a k h; cases h
  | cons x l ih =>
    intro hd a k h e
    rw [List.map_cons, List.nodup_cons] at hd
    rcases List.mem_cons.1 h with rfl | h
    · simp [e]
    · have : key x ≠ k := fun e' => hd.1 (List.mem_map.2 ⟨a, h, by rw [e, e']⟩)
      rw [List.find?_cons_of_neg (by simpa using this)]
      exact ih hd.2 h e

theorem value_cases {m : Model D} (hm : Sound m) {cells : List (Nat × Nat)} (hc : Converted m cells) {name : Str} (hn : isDefined m name = true) (dim : Nat)
    {c : Nat × Nat} (h : c ∈ cells) : (Has m c dim name ∧ ∃ v, cellValue m dim name c = .ok v) ∨ (¬ Has m c dim name ∧ cellValue m dim name c = .ub) := by
  obtain ⟨b, hb, hbi, hlt⟩ := hc c h
  obtain ⟨a, ha, han⟩ := isDefined_iff.1 hn b hb
  unfold cellValue
  rw [find_of_key (key := Block.id) hm.ids hb hbi, ofParse_some, ok_bind, find_of_key (key := Attr.name) (hm.names b hb) ha han]
  dsimp only
  by_cases hd : a.dim = dim
  · rw [if_pos hd]
    exact .inl ⟨⟨b, hb, hbi, a, ha, han, hd⟩, _, index_of_lt (by rw [hm.values b hb a ha]; exact hlt)⟩
  · rw [if_neg hd]
    refine .inr ⟨?_, rfl⟩
    rintro ⟨b', hb', hbi', a', ha', han', hd'⟩
    have e := find_of_key (key := Block.id) hm.ids hb' hbi'
    rw [find_of_key (key := Block.id) hm.ids hb hbi] at e
    cases e
    have e := find_of_key (key := Attr.name) (hm.names b hb) ha' han'
    rw [find_of_key (key := Attr.name) (hm.names b hb) ha han] at e
    cases e
    exact hd hd'

/-- The name is that of the regions. -/
def Reserved (x : Nat × Str) : Prop := x.2 = cs!"attribute"

/-- The property is not of this number of components in the block of some polyhedron of the solid. -/
def Wrong (m : Model D) (cells : List (Nat × Nat)) (x : Nat × Str) : Prop := ¬ Reserved x ∧ ∃ c ∈ cells, ¬ Has m c x.1 x.2

/-- None of these. -/
def Right (m : Model D) (cells : List (Nat × Nat)) (x : Nat × Str) : Prop := ¬ Reserved x ∧ ∀ c ∈ cells, Has m c x.1 x.2

theorem transfer_cases {m : Model D} (hm : Sound m) {cells : List (Nat × Nat)} (hc : Converted m cells) {dim : Nat} {name : Str} (hn : isDefined m name = true) :
    (Right m cells (dim, name) ∧ ∃ a, transfer m cells dim name = .ok a) ∨ (Wrong m cells (dim, name) ∧ transfer m cells dim name = .ub) ∨
    (Reserved (dim, name) ∧ transfer m cells dim name = .throw) := by
  unfold transfer
  by_cases hr : name = regionName
  · subst hr
    refine .inr (.inr ⟨rfl, ?_⟩)
    rw [decide_eq_false (fun h => h rfl), check_false]
    rfl
  · rw [decide_eq_true hr, check_true, ok_bind]
    rcases map_cases (g := cellValue m dim name) (fine := fun c => Has m c dim name) (wrong := fun c => ¬ Has m c dim name) (refused := fun _ => False) cells
      (fun c h => (value_cases hm hc hn dim h).imp id .inl) with ⟨h1, vs, e⟩ | ⟨h1, e⟩ | ⟨h1, -⟩
    · exact .inl ⟨⟨hr, h1⟩, _, by rw [e]; rfl⟩
    · exact .inr (.inl ⟨⟨hr, firstBad_exists h1⟩, by rw [e]; rfl⟩)
    · obtain ⟨_, _, h⟩ := firstBad_exists h1
      exact absurd h id

/-! ## Exports -/

/-- What is asked for is of one, two or three components, as the names of the functions say. -/
def Asked (asked : List (Nat × Str)) : Prop := ∀ a ∈ asked, a.1 = 1 ∨ a.1 = 2 ∨ a.1 = 3

/-- The properties exported, in order: those asked for that are on every block, by number of components. -/
def exported (m : Model D) (asked : List (Nat × Str)) : List (Nat × Str) :=
  [1, 2, 3].flatMap fun d => asked.filter fun a => a.1 = d ∧ ∀ b ∈ m.blocks, ∃ x ∈ b.attrs, x.name = a.2

theorem names_exported {m : Model D} {asked : List (Nat × Str)} (ha : Asked asked) :
    (request m asked).one.map (1, ·) ++ ((request m asked).two.map (2, ·) ++ (request m asked).three.map (3, ·)) = exported m asked := by
  obtain ⟨r1, r2, r3⟩ := requested (m := m) asked
  have key : ∀ (d : Nat) (p : Nat × Str → Bool), (∀ a, p a = true → a.1 = d) → ((asked.filter p).map Prod.snd).map (d, ·) = asked.filter p := by
    intro d p hp
    rw [List.map_map]
    refine (List.map_congr_left fun a h => ?_).trans (List.map_id _)
    have := hp a (List.mem_filter.1 h).2
    obtain ⟨x, y⟩ := a
    dsimp only at this
    simp [this]
  have swap : ∀ (p q : Nat × Str → Prop) [DecidablePred p] [DecidablePred q], (∀ a ∈ asked, p a ↔ q a) →
      (asked.filter fun a => decide (p a)) = asked.filter fun a => decide (q a) := by
    intro p q _ _ h
    exact List.filter_congr fun a ha => decide_eq_decide.2 (h a ha)
  rw [r1, r2, r3]
  unfold exported
  simp only [List.flatMap_cons, List.flatMap_nil, List.append_nil]
  rw [swap _ (fun a => a.1 = 1 ∧ ∀ b ∈ m.blocks, ∃ x ∈ b.attrs, x.name = a.2) fun a _ => and_congr_right' isDefined_iff,
    swap _ (fun a => a.1 = 2 ∧ ∀ b ∈ m.blocks, ∃ x ∈ b.attrs, x.name = a.2) fun a _ => and_congr_right' isDefined_iff,
    swap (fun a => (a.1 ≠ 1 ∧ a.1 ≠ 2) ∧ isDefined m a.2 = true) (fun a => a.1 = 3 ∧ ∀ b ∈ m.blocks, ∃ x ∈ b.attrs, x.name = a.2) fun a h =>
      and_congr (by rcases ha a h with h | h | h <;> omega) isDefined_iff,
    key 1 _ fun a h => (of_decide_eq_true h).1, key 2 _ fun a h => (of_decide_eq_true h).1, key 3 _ fun a h => (of_decide_eq_true h).1]

/-- Every polyhedron of the solid is in a region of the map. -/
def Covered (regions : List (Nat × Nat)) (cells : List (Nat × Nat)) : Prop := ∀ c ∈ cells, ∃ r, find regions c.1 = some r

theorem regions_cases (regions cells : List (Nat × Nat)) :
    (Covered regions cells ∧ ∃ rs, regionAttribute regions cells = .ok rs) ∨ (¬ Covered regions cells ∧ regionAttribute regions cells = .ub) := by
  rcases map_cases (g := regionOf regions) (fine := fun c => ∃ r, find regions c.1 = some r) (wrong := fun c => ¬ ∃ r, find regions c.1 = some r)
    (refused := fun _ => False) cells (by
      intro c _
      unfold regionOf
      cases h : find regions c.1 with
      | none => exact .inr (.inl ⟨by simp, rfl⟩)
      | some r => exact .inl ⟨⟨r, rfl⟩, r, rfl⟩) with h | ⟨h, e⟩ | ⟨h, -⟩
  · exact .inl h
  · obtain ⟨c, hc, h⟩ := firstBad_exists h
    exact .inr ⟨fun ha => h (ha c hc), e⟩
  · obtain ⟨_, _, h⟩ := firstBad_exists h
    exact absurd h id

theorem prepare_cases {m : Model D} (hm : Sound m) (regions : List (Nat × Nat)) {cells : List (Nat × Nat)} (hc : Converted m cells) {asked : List (Nat × Str)}
    (ha : Asked asked) :
    (Covered regions cells ∧ (∀ x ∈ exported m asked, Right m cells x) ∧ ∃ r, prepare m regions cells (request m asked) = .ok r) ∨
    ((¬ Covered regions cells ∨ FirstBad (Right m cells) (Wrong m cells) (exported m asked)) ∧ prepare m regions cells (request m asked) = .ub) ∨
    (Covered regions cells ∧ FirstBad (Right m cells) Reserved (exported m asked) ∧ prepare m regions cells (request m asked) = .throw) := by
  have hdef : ∀ x ∈ exported m asked, isDefined m x.2 = true := by
    intro x hx
    obtain ⟨d, _, hx⟩ := List.mem_flatMap.1 hx
    exact isDefined_iff.2 (of_decide_eq_true (List.mem_filter.1 hx).2).2
  rw [← names_exported ha] at hdef ⊢
  have part : ∀ (d : Nat) (names : List Str), (∀ n ∈ names, isDefined m n = true) →
      ((∀ x ∈ names.map ((d, ·) : Str → Nat × Str), Right m cells x) ∧ ∃ as, Res.mapM' (transfer m cells d) names = .ok as) ∨
      (FirstBad (Right m cells) (Wrong m cells) (names.map (d, ·)) ∧ Res.mapM' (transfer m cells d) names = .ub) ∨
      (FirstBad (Right m cells) Reserved (names.map (d, ·)) ∧ Res.mapM' (transfer m cells d) names = .throw) := by
    intro d names hn
    rw [firstBad_map, firstBad_map]
    rcases map_cases (g := transfer m cells d) (fine := fun n => Right m cells (d, n)) (wrong := fun n => Wrong m cells (d, n)) (refused := fun n => Reserved (d, n))
      names (fun n h => transfer_cases hm hc (hn n h)) with ⟨h1, h2⟩ | h | h
    · refine .inl ⟨fun x hx => ?_, h2⟩
      obtain ⟨n, hn, rfl⟩ := List.mem_map.1 hx
      exact h1 n hn
    · exact .inr (.inl h)
    · exact .inr (.inr h)
  have h1 := part 1 (request m asked).one fun n hn => hdef (1, n) (List.mem_append_left _ (List.mem_map.2 ⟨n, hn, rfl⟩))
  have h2 := part 2 (request m asked).two fun n hn => hdef (2, n) (List.mem_append_right _ (List.mem_append_left _ (List.mem_map.2 ⟨n, hn, rfl⟩)))
  have h3 := part 3 (request m asked).three fun n hn => hdef (3, n) (List.mem_append_right _ (List.mem_append_right _ (List.mem_map.2 ⟨n, hn, rfl⟩)))
  simp only [firstBad_append, List.mem_append]
  unfold prepare
  rcases regions_cases regions cells with ⟨hcov, rs, e⟩ | ⟨hcov, e⟩
  swap
  · exact .inr (.inl ⟨.inl hcov, by rw [e, ub_bind]⟩)
  rw [e, ok_bind]
  rcases h1 with ⟨h1, a1, e1⟩ | ⟨h1, e1⟩ | ⟨h1, e1⟩
  · rw [e1, ok_bind]
    rcases h2 with ⟨h2, a2, e2⟩ | ⟨h2, e2⟩ | ⟨h2, e2⟩
    · rw [e2, ok_bind]
      rcases h3 with ⟨h3, a3, e3⟩ | ⟨h3, e3⟩ | ⟨h3, e3⟩
      · refine .inl ⟨hcov, ?_, _, by rw [e3]; rfl⟩
        rintro x (hx | hx | hx)
        exacts [h1 x hx, h2 x hx, h3 x hx]
      · exact .inr (.inl ⟨.inr (.inr ⟨h1, .inr ⟨h2, h3⟩⟩), by rw [e3]; rfl⟩)
      · exact .inr (.inr ⟨hcov, .inr ⟨h1, .inr ⟨h2, h3⟩⟩, by rw [e3]; rfl⟩)
    · exact .inr (.inl ⟨.inr (.inr ⟨h1, .inl h2⟩), by rw [e2]; rfl⟩)
    · exact .inr (.inr ⟨hcov, .inr ⟨h1, .inl h2⟩, by rw [e2]; rfl⟩)
  · exact .inr (.inl ⟨.inr (.inl h1), by rw [e1]; rfl⟩)
  · exact .inr (.inr ⟨hcov, .inl h1, by rw [e1]; rfl⟩)

theorem right_not_wrong {m : Model D} {cells : List (Nat × Nat)} {x : Nat × Str} (h : Wrong m cells x) : ¬ Right m cells x := by
  obtain ⟨-, c, hc, h⟩ := h
  exact fun hr => h (hr.2 c hc)

/-- The export is made, has undefined behaviour or is refused exactly in these cases, with any map of the regions. -/
theorem prepare_iff {m : Model D} (hm : Sound m) (regions : List (Nat × Nat)) {cells : List (Nat × Nat)} (hc : Converted m cells) {asked : List (Nat × Str)}
    (ha : Asked asked) :
    ((∃ r, prepare m regions cells (request m asked) = .ok r) ↔ Covered regions cells ∧ ∀ x ∈ exported m asked, Right m cells x) ∧
    (prepare m regions cells (request m asked) = .ub ↔ ¬ Covered regions cells ∨ FirstBad (Right m cells) (Wrong m cells) (exported m asked)) ∧
    (prepare m regions cells (request m asked) = .throw ↔ Covered regions cells ∧ FirstBad (Right m cells) Reserved (exported m asked)) := by
  have c1 : FirstBad (Right m cells) (Wrong m cells) (exported m asked) → ¬ ∀ x ∈ exported m asked, Right m cells x := fun h hr => by
    obtain ⟨x, hx, h⟩ := firstBad_exists h
    exact right_not_wrong h (hr x hx)
  have c2 : FirstBad (Right m cells) Reserved (exported m asked) → ¬ ∀ x ∈ exported m asked, Right m cells x := fun h hr => by
    obtain ⟨x, hx, h⟩ := firstBad_exists h
    exact (hr x hx).1 h
  have c3 : FirstBad (Right m cells) (Wrong m cells) (exported m asked) → ¬ FirstBad (Right m cells) Reserved (exported m asked) :=
    firstBad_clash (fun x h => right_not_wrong h) (fun x h hr => hr.1 h) (fun x h h' => h.1 h')
  rcases prepare_cases hm regions hc ha with ⟨h1, h2, r, e⟩ | ⟨h, e⟩ | ⟨h1, h2, e⟩
  · refine ⟨⟨fun _ => ⟨h1, h2⟩, fun _ => ⟨r, e⟩⟩, ⟨fun e' => (by rw [e] at e'; cases e'), ?_⟩, ⟨fun e' => (by rw [e] at e'; cases e'), ?_⟩⟩
    · rintro (h | h)
      · exact absurd h1 h
      · exact absurd h2 (c1 h)
    · rintro ⟨-, h⟩
      exact absurd h2 (c2 h)
  · refine ⟨⟨fun ⟨r, e'⟩ => (by rw [e] at e'; cases e'), ?_⟩, ⟨fun _ => h, fun _ => e⟩, ⟨fun e' => (by rw [e] at e'; cases e'), ?_⟩⟩
    · rintro ⟨k1, k2⟩
      rcases h with h | h
      · exact absurd k1 h
      · exact absurd k2 (c1 h)
    · rintro ⟨k1, k2⟩
      rcases h with h | h
      · exact absurd k1 h
      · exact absurd k2 (c3 h)
  · refine ⟨⟨fun ⟨r, e'⟩ => (by rw [e] at e'; cases e'), ?_⟩, ⟨fun e' => (by rw [e] at e'; cases e'), ?_⟩, ⟨fun _ => ⟨h1, h2⟩, fun _ => e⟩⟩
    · rintro ⟨-, h⟩
      exact absurd h (c2 h2)
    · rintro (h | h)
      · exact absurd h1 h
      · exact absurd h2 (c3 h)

theorem brep_covered {m : Model D} (hm : Sound m) {cells : List (Nat × Nat)} (hc : Converted m cells) : Covered (brepRegions m) cells := by
  intro c h
  obtain ⟨b, hb, hbi, _⟩ := hc c h
  obtain ⟨i, hi⟩ := List.mem_iff_getElem?.1 hb
  exact ⟨i, by rw [← hbi]; exact find_brepRegions m hm.ids hi⟩

theorem unit_covered {m : Model D} {cells : List (Nat × Nat)} : Covered (unitRegions m) cells ↔ ∀ c ∈ cells, ∃ u ∈ m.units, c.1 ∈ u := by
  refine forall_congr' fun c => imp_congr_right fun _ => ?_
  rw [find_unitRegions, Verif.Props.Geos.unitOf, ← Option.isSome_iff_exists, List.findIdx?_isSome, List.any_eq_true]
  simp

/-- **C176 for boundary representations.** -/
theorem brep_export_iff {m : Model D} (hm : Sound m) {cells : List (Nat × Nat)} (hc : Converted m cells) {asked : List (Nat × Str)} (ha : Asked asked) :
    ((∃ r, prepare m (brepRegions m) cells (request m asked) = .ok r) ↔ ∀ x ∈ exported m asked, Right m cells x) ∧
    (prepare m (brepRegions m) cells (request m asked) = .ub ↔ FirstBad (Right m cells) (Wrong m cells) (exported m asked)) ∧
    (prepare m (brepRegions m) cells (request m asked) = .throw ↔ FirstBad (Right m cells) Reserved (exported m asked)) := by
  have hcov := brep_covered hm hc
  obtain ⟨h1, h2, h3⟩ := prepare_iff hm (brepRegions m) hc ha
  refine ⟨by simpa [hcov] using h1, by simpa [hcov] using h2, by simpa [hcov] using h3⟩

/-- **C176 for structural models.** -/
theorem model_export_iff {m : Model D} (hm : Sound m) {cells : List (Nat × Nat)} (hc : Converted m cells) {asked : List (Nat × Str)} (ha : Asked asked) :
    ((∃ r, prepare m (unitRegions m) cells (request m asked) = .ok r) ↔
      (∀ c ∈ cells, ∃ u ∈ m.units, c.1 ∈ u) ∧ ∀ x ∈ exported m asked, Right m cells x) ∧
    (prepare m (unitRegions m) cells (request m asked) = .ub ↔
      ¬ (∀ c ∈ cells, ∃ u ∈ m.units, c.1 ∈ u) ∨ FirstBad (Right m cells) (Wrong m cells) (exported m asked)) ∧
    (prepare m (unitRegions m) cells (request m asked) = .throw ↔
      (∀ c ∈ cells, ∃ u ∈ m.units, c.1 ∈ u) ∧ FirstBad (Right m cells) Reserved (exported m asked)) := by
  simpa only [unit_covered] using prepare_iff hm (unitRegions m) hc ha

/-- An export that is not made is refused. -/
def Refused (D : Type) : Prop := ∀ (m : Model D), Sound m → ∀ (cells : List (Nat × Nat)), Converted m cells → ∀ (asked : List (Nat × Str)), Asked asked →
  (∃ r, prepare m (brepRegions m) cells (request m asked) = .ok r) ∨ prepare m (brepRegions m) cells (request m asked) = .throw

/-- One block with a polyhedron and a property of two components. -/
def model1 : Model Int := ⟨[⟨7, 1, [⟨cs!"p", 2, [[5, 6]]⟩]⟩], []⟩

theorem model1_sound : Sound model1 where
  ids := by decide
  names := by decide
  values := by decide

theorem model1_cells : Converted model1 [(7, 0)] := by unfold Converted; decide

/-- **C176 fails**: asking for a property of two components as one of one component is not refused. -/
theorem refused_fails : ¬ Refused Int := by
  intro h
  have e : prepare model1 (brepRegions model1) [(7, 0)] (request model1 [(1, cs!"p")]) = .ub := by decide
  rcases h model1 model1_sound [(7, 0)] model1_cells [(1, cs!"p")] (by unfold Asked; decide) with ⟨r, e'⟩ | e' <;> rw [e] at e' <;> cases e'

/-- **C176**: exports of which every property has the number of components asked for, and every block is in a unit, are made or refused. -/
theorem refused_partial {m : Model D} (hm : Sound m) {cells : List (Nat × Nat)} (hc : Converted m cells) {asked : List (Nat × Str)} (ha : Asked asked)
    (hw : ∀ x ∈ exported m asked, ¬ Wrong m cells x) :
    ((∃ r, prepare m (brepRegions m) cells (request m asked) = .ok r) ∨ prepare m (brepRegions m) cells (request m asked) = .throw) ∧
    ((∀ c ∈ cells, ∃ u ∈ m.units, c.1 ∈ u) →
      (∃ r, prepare m (unitRegions m) cells (request m asked) = .ok r) ∨ prepare m (unitRegions m) cells (request m asked) = .throw) := by
  constructor
  · rcases prepare_cases hm (brepRegions m) hc ha with ⟨-, -, h⟩ | ⟨h | h, -⟩ | ⟨-, -, h⟩
    · exact .inl h
    · exact absurd (brep_covered hm hc) h
    · obtain ⟨x, hx, h⟩ := firstBad_exists h
      exact absurd h (hw x hx)
    · exact .inr h
  · intro hu
    rcases prepare_cases hm (unitRegions m) hc ha with ⟨-, -, h⟩ | ⟨h | h, -⟩ | ⟨-, -, h⟩
    · exact .inl h
    · exact absurd (unit_covered.2 hu) h
    · obtain ⟨x, hx, h⟩ := firstBad_exists h
      exact absurd h (hw x hx)
    · exact .inr h

/-- The conditions hold for the property of the example asked for with two components. -/
example : (∀ x ∈ exported model1 [(2, cs!"p"), (1, cs!"q")], Right model1 [(7, 0)] x) ∧ exported model1 [(2, cs!"p"), (1, cs!"q")] = [(2, cs!"p")] :=
  ⟨(brep_export_iff model1_sound model1_cells (by unfold Asked; decide)).1.1 ⟨([0], [⟨cs!"p", 2, [[5, 6]]⟩]), by decide⟩, by decide⟩

end Verif.Props.GeosRefused
