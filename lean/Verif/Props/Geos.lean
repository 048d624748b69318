import Mathlib.Order.Lattice
import Mathlib.Order.Defs.LinearOrder
import Verif.Lemmas.Sides
import Verif.Props.Sides
import Verif.Lemmas.LsoModel
import Verif.Model.Geos

/-!
# Exports for GEOS (C47)
-/

namespace Verif.Props.Geos

open Verif Verif.Sides Verif.Geos Res

variable {D : Type}

/-! ## Regions -/

/-- Every polyhedron of the solid comes from a polyhedron of a block. -/
def Converted (m : Model D) (cells : List (Nat × Nat)) : Prop := ∀ c ∈ cells, ∃ b ∈ m.blocks, b.id = c.1 ∧ c.2 < b.nb

theorem find_brepRegions (m : Model D) (hd : (m.blocks.map Block.id).Nodup) {i : Nat} {b : Block D} (h : m.blocks[i]? = some b) :
    find (brepRegions m) b.id = some i := by
  have gen : ∀ (bs : List (Block D)) (r : List (Nat × Nat)) (k : Nat), (bs.map Block.id).Nodup → (∀ b ∈ bs, find r b.id = none) →
      (∀ x v, find r x = some v → find (bs.foldl (fun (s : List (Nat × Nat) × Nat) b => (emplace s.1 b.id s.2, s.2 + 1)) (r, k)).1 x = some v) ∧
      ∀ (i : Nat) (b : Block D), bs[i]? = some b →
        find (bs.foldl (fun (s : List (Nat × Nat) × Nat) b => (emplace s.1 b.id s.2, s.2 + 1)) (r, k)).1 b.id = some (k + i) := by
    intro bs
    induction bs with
    | nil => intro r k _ _; exact ⟨fun _ _ h => h, fun i b h => by simp at h⟩
    | cons a bs ih =>
      intro r k hd hn
      rw [List.map_cons, List.nodup_cons] at hd
      have hnew : ∀ b ∈ bs, find (emplace r a.id k) b.id = none := by
        intro b hb
        rw [find_emplace, hn b (by simp [hb]), if_neg (fun (e : a.id = b.id) => hd.1 (e ▸ List.mem_map_of_mem hb))]; rfl
      obtain ⟨i1, i2⟩ := ih (emplace r a.id k) (k + 1) hd.2 hnew
      refine ⟨?_, ?_⟩
      · intro x v hx
        rw [List.foldl_cons]
        exact i1 x v (by rw [find_emplace, hx]; rfl)
      · intro i b hb
        rw [List.foldl_cons]
        cases i with
        | zero =>
          simp at hb; subst hb
          exact i1 _ _ (by rw [find_emplace, hn a (by simp), if_pos rfl]; rfl)
        | succ i =>
          rw [i2 i b (by simpa using hb)]; congr 1; omega
  have := (gen m.blocks [] 0 hd (fun _ _ => rfl)).2 i b h
  rw [Nat.zero_add] at this
  exact this

/-- C47 for a `BRep`: the region of a polyhedron is the rank of its block. -/
theorem brep_regions {m : Model D} (hd : (m.blocks.map Block.id).Nodup) {cells : List (Nat × Nat)} (hc : Converted m cells) :
    ∃ rs, regionAttribute (brepRegions m) cells = .ok rs ∧
      List.Forall₂ (fun c r => ∃ b, m.blocks[r]? = some b ∧ b.id = c.1) cells rs := by
  have h : ∀ c ∈ cells, ∃ r, regionOf (brepRegions m) c = .ok r ∧ ∃ b, m.blocks[r]? = some b ∧ b.id = c.1 := by
    intro c hcc
    obtain ⟨b, hb, hbi, _⟩ := hc c hcc
    obtain ⟨i, hi⟩ := List.mem_iff_getElem?.1 hb
    refine ⟨i, ?_, b, hi, hbi⟩
    unfold regionOf
    rw [← hbi, find_brepRegions m hd hi]
  clear hc
  induction cells with
  | nil => exact ⟨[], rfl, List.Forall₂.nil⟩
  | cons c cells ih =>
    obtain ⟨r, h1, h2⟩ := h c (by simp)
    obtain ⟨rs, h3, h4⟩ := ih (fun x hx => h x (by simp [hx]))
    refine ⟨r :: rs, ?_, List.Forall₂.cons h2 h4⟩
    unfold regionAttribute at h3 ⊢
    rw [mapM'_cons, h1, ok_bind, h3]; rfl

/-- The first unit with a block. -/
def unitOf (units : List (List Nat)) (b : Nat) : Option Nat := units.findIdx? fun u => u.contains b

theorem find_unitRegions (m : Model D) (b : Nat) : find (unitRegions m) b = unitOf m.units b := by
  have inner : ∀ (u : List Nat) (r : List (Nat × Nat)) (k : Nat),
      find (u.foldl (fun r i => emplace r i k) r) b = (find r b).or (if b ∈ u then some k else none) := by
    intro u
    induction u with
    | nil => intro r k; simp
    | cons i u ih =>
      intro r k
      rw [List.foldl_cons, ih, find_emplace]
      cases find r b with
      | some v => rfl
      | none =>
        by_cases h : i = b
        · subst h; simp
        · simp [h, Ne.symm h]
  have gen : ∀ (us : List (List Nat)) (r : List (Nat × Nat)) (k : Nat),
      find (us.foldl (fun (s : List (Nat × Nat) × Nat) u => (u.foldl (fun r i => emplace r i s.2) s.1, s.2 + 1)) (r, k)).1 b =
        (find r b).or ((unitOf us b).map (k + ·)) := by
    intro us
    induction us with
    | nil => intro r k; simp [unitOf]
    | cons u us ih =>
      intro r k
      rw [List.foldl_cons]
      simp only
      rw [ih, inner]
      cases find r b with
      | some v => rfl
      | none =>
        simp only [Option.none_or, unitOf, List.findIdx?_cons, List.contains_iff_mem]
        by_cases h : b ∈ u
        · simp [h]
        · simp only [h, if_false, Option.none_or, Bool.false_eq_true, Option.map_map]
          congr 1
          funext x
          simp; omega
  have := gen m.units [] 0
  rw [unitRegions, this]
  simp [find]

/-- C47 for a structural model whose blocks are all in a unit: the region of a polyhedron is the number of the first unit with its block. -/
theorem unit_regions_partial {m : Model D} {cells : List (Nat × Nat)} (hc : Converted m cells)
    (hu : ∀ b ∈ m.blocks, ∃ u ∈ m.units, b.id ∈ u) : ∃ rs, regionAttribute (unitRegions m) cells = .ok rs ∧
      List.Forall₂ (fun c r => ∃ u, m.units[r]? = some u ∧ c.1 ∈ u ∧ ∀ (j : Nat) (v : List Nat), j < r → m.units[j]? = some v → c.1 ∉ v) cells rs := by
  have h : ∀ c ∈ cells, ∃ r, regionOf (unitRegions m) c = .ok r ∧
      ∃ u, m.units[r]? = some u ∧ c.1 ∈ u ∧ ∀ (j : Nat) (v : List Nat), j < r → m.units[j]? = some v → c.1 ∉ v := by
    intro c hcc
    obtain ⟨b, hb, hbi, _⟩ := hc c hcc
    obtain ⟨u, hu, hbu⟩ := hu b hb
    unfold regionOf
    rw [find_unitRegions]
    cases hi : unitOf m.units c.1 with
    | none =>
      unfold unitOf at hi
      rw [List.findIdx?_eq_none_iff] at hi
      have := hi u hu
      simp [hbi ▸ hbu] at this
    | some r =>
      refine ⟨r, rfl, ?_⟩
      unfold unitOf at hi
      rw [List.findIdx?_eq_some_iff_getElem] at hi
      obtain ⟨hr, h1, h2⟩ := hi
      refine ⟨m.units[r], List.getElem?_eq_getElem hr, by simpa using h1, ?_⟩
      intro j v hj hv
      have := h2 j hj
      rw [List.getElem?_eq_getElem (by omega)] at hv
      cases hv
      simpa using this
  clear hc hu
  induction cells with
  | nil => exact ⟨[], rfl, List.Forall₂.nil⟩
  | cons c cells ih =>
    obtain ⟨r, h1, h2⟩ := h c (by simp)
    obtain ⟨rs, h3, h4⟩ := ih (fun x hx => h x (by simp [hx]))
    refine ⟨r :: rs, ?_, List.Forall₂.cons h2 h4⟩
    unfold regionAttribute at h3 ⊢
    rw [mapM'_cons, h1, ok_bind, h3]; rfl

/-- C47 is false for a structural model with a block outside all units: every export has undefined behaviour. -/
theorem outside_units_ub {m : Model D} {cells : List (Nat × Nat)} {c : Nat × Nat} (hc : c ∈ cells) (hu : ∀ u ∈ m.units, c.1 ∉ u) :
    regionAttribute (unitRegions m) cells = .ub := by
  have hcase : ∀ x : Nat × Nat, regionOf (unitRegions m) x = .ub ∨
      ∃ r, regionOf (unitRegions m) x = .ok r := by
    intro x; unfold regionOf; cases find (unitRegions m) x.1 <;> simp
  have hcub : regionOf (unitRegions m) c = .ub := by
    have : find (unitRegions m) c.1 = none := by
      rw [find_unitRegions, unitOf, List.findIdx?_eq_none_iff]
      intro u hu'
      simpa using hu u hu'
    unfold regionOf
    rw [this]
  unfold regionAttribute
  induction cells with
  | nil => simp at hc
  | cons x cells ih =>
    rw [mapM'_cons]
    rcases hcase x with h | ⟨r, h⟩
    · rw [h]; rfl
    · rw [h, ok_bind]
      rcases List.mem_cons.1 hc with rfl | hc
      · rw [hcub] at h; cases h
      · rw [ih hc]; rfl

/-- Witness: one block, no unit. -/
example : prepare (D := Int) ⟨[⟨7, 1, []⟩], []⟩ (unitRegions (D := Int) ⟨[⟨7, 1, []⟩], []⟩) [(7, 0)] {} = .ub := by decide

example : prepare (D := Int) ⟨[⟨7, 1, []⟩, ⟨3, 1, []⟩], [[3], [7, 3]]⟩ (unitRegions (D := Int) ⟨[⟨7, 1, []⟩, ⟨3, 1, []⟩], [[3], [7, 3]]⟩) [(7, 0), (3, 0)] {} =
    .ok ([1, 0], []) := by decide

/-! ## Properties -/

/-- The value of a polyhedron of a block. -/
def valueOf (m : Model D) (name : Str) (cell : Nat × Nat) : Option (List D) :=
  (m.blocks.find? fun b => b.id = cell.1).bind fun b => (b.attrs.find? fun a => a.name = name).bind fun a => a.values[cell.2]?

theorem cellValue_ok {m : Model D} {dim : Nat} {name : Str} {c : Nat × Nat} {v : List D} (h : cellValue m dim name c = .ok v) : valueOf m name c = some v := by
  unfold cellValue at h
  obtain ⟨b, h1, h2⟩ := bind_eq_ok.1 h
  unfold valueOf
  have : (m.blocks.find? fun b => b.id = c.1) = some b := by
    cases hf : (m.blocks.find? fun b => b.id = c.1) with
    | none => rw [hf] at h1; cases h1
    | some b' => rw [hf] at h1; cases h1; rfl
  rw [this, Option.bind_some]
  split at h2
  · cases h2
  · rename_i a ha
    rw [ha, Option.bind_some]
    split at h2
    · exact index_eq_ok.1 h2
    · cases h2

/-- Every property of an export has on each polyhedron of the solid the value of the polyhedron it comes from; the properties are those asked for. -/
theorem properties_transferred {m : Model D} {regions cells : List (Nat × Nat)} {ns : Names} {rs : List Nat} {as : List (Attr D)}
    (h : prepare m regions cells ns = .ok (rs, as)) : as.map Attr.name = ns.one ++ ns.two ++ ns.three ∧
      ∀ a ∈ as, List.Forall₂ (fun c v => valueOf m a.name c = some v) cells a.values := by
  unfold prepare at h
  obtain ⟨rs', _, h1⟩ := bind_eq_ok.1 h
  obtain ⟨a, ha, h2⟩ := bind_eq_ok.1 h1
  obtain ⟨b, hb, h3⟩ := bind_eq_ok.1 h2
  obtain ⟨c, hc, h4⟩ := bind_eq_ok.1 h3
  cases h4
  have gen : ∀ {dim : Nat} {names : List Str} {as : List (Attr D)}, mapM' (transfer m cells dim) names = .ok as →
      as.map Attr.name = names ∧ ∀ a ∈ as, List.Forall₂ (fun c v => valueOf m a.name c = some v) cells a.values := by
    intro dim names
    induction names with
    | nil => intro as h; cases h; simp
    | cons n names ih =>
      intro as h
      rw [mapM'_cons] at h
      obtain ⟨a, h1, h2⟩ := bind_eq_ok.1 h
      obtain ⟨as', h3, h4⟩ := bind_eq_ok.1 h2
      cases h4
      obtain ⟨i1, i2⟩ := ih h3
      unfold transfer at h1
      obtain ⟨_, _, h5⟩ := bind_eq_ok.1 h1
      obtain ⟨vs, h6, h7⟩ := bind_eq_ok.1 h5
      cases h7
      refine ⟨by simp [i1], ?_⟩
      intro x hx
      rcases List.mem_cons.1 hx with rfl | hx
      · exact (Verif.Lso.mapM'_inv h6).imp fun _ _ h => cellValue_ok h
      · exact i2 x hx
  obtain ⟨a1, a2⟩ := gen ha
  obtain ⟨b1, b2⟩ := gen hb
  obtain ⟨c1, c2⟩ := gen hc
  refine ⟨by simp [a1, b1, c1], ?_⟩
  intro x hx
  simp only [List.mem_append] at hx
  rcases hx with (hx | hx) | hx
  · exact a2 x hx
  · exact b2 x hx
  · exact c2 x hx

/-- Names of an exporter after some requests. -/
def request (m : Model D) (asked : List (Nat × Str)) : Names := asked.foldl (fun ns a => addProperty m ns a.1 a.2) {}

/-- Only the properties defined on every block are exported, once per request. -/
theorem requested {m : Model D} (asked : List (Nat × Str)) :
    (request m asked).one = ((asked.filter fun a => a.1 = 1 ∧ isDefined m a.2).map Prod.snd) ∧
    (request m asked).two = ((asked.filter fun a => a.1 = 2 ∧ isDefined m a.2).map Prod.snd) ∧
    (request m asked).three = ((asked.filter fun a => (a.1 ≠ 1 ∧ a.1 ≠ 2) ∧ isDefined m a.2).map Prod.snd) := by
  have gen : ∀ (asked : List (Nat × Str)) (ns : Names),
      (asked.foldl (fun ns a => addProperty m ns a.1 a.2) ns).one = ns.one ++ ((asked.filter fun a => a.1 = 1 ∧ isDefined m a.2).map Prod.snd) ∧
      (asked.foldl (fun ns a => addProperty m ns a.1 a.2) ns).two = ns.two ++ ((asked.filter fun a => a.1 = 2 ∧ isDefined m a.2).map Prod.snd) ∧
      (asked.foldl (fun ns a => addProperty m ns a.1 a.2) ns).three =
        ns.three ++ ((asked.filter fun a => (a.1 ≠ 1 ∧ a.1 ≠ 2) ∧ isDefined m a.2).map Prod.snd) := by
    intro asked
    induction asked with
    | nil => intro ns; simp
    | cons a asked ih =>
      intro ns
      rw [List.foldl_cons]
      obtain ⟨i1, i2, i3⟩ := ih (addProperty m ns a.1 a.2)
      rw [i1, i2, i3]
      obtain ⟨d, n⟩ := a
      simp only [List.filter_cons]
      unfold addProperty
      cases hdef : isDefined m n
      · simp
      · match d with
        | 0 => simp
        | 1 => simp
        | 2 => simp
        | d + 3 => simp
  unfold request
  simpa using gen asked {}

theorem isDefined_iff {m : Model D} {name : Str} : isDefined m name = true ↔ ∀ b ∈ m.blocks, ∃ a ∈ b.attrs, a.name = name := by
  unfold isDefined
  simp [List.all_eq_true, List.any_eq_true]

/-- Asking for a property with another number of components than it has is undefined behaviour, for every model with a polyhedron in the solid. -/
theorem wrong_dimension_ub {m : Model D} {cells : List (Nat × Nat)} {dim : Nat} {name : Str} (hn : name ≠ regionName) {c : Nat × Nat} {b : Block D} {a : Attr D}
    (hb : (m.blocks.find? fun b => b.id = c.1) = some b) (ha : (b.attrs.find? fun a => a.name = name) = some a) (hd : a.dim ≠ dim) :
    transfer m (c :: cells) dim name = .ub := by
  unfold transfer
  rw [decide_eq_true hn, check_true, ok_bind, mapM'_cons]
  have : cellValue m dim name c = .ub := by
    unfold cellValue
    rw [hb, ofParse_some, ok_bind, ha]
    simp only
    rw [if_neg hd]
  rw [this]; rfl

/-- A property with the name of the attribute of the regions is refused. -/
theorem region_name_throws (m : Model D) (cells : List (Nat × Nat)) (dim : Nat) : transfer m cells dim cs!"attribute" = .throw := by
  unfold transfer
  rw [decide_eq_false (fun h => h rfl), check_false]; rfl

/-- With the right types every requested property is exported. -/
theorem export_ok {m : Model D} {cells : List (Nat × Nat)} (hd : (m.blocks.map Block.id).Nodup) (hc : Converted m cells) {asked : List (Nat × Str)}
    (hn : ∀ a ∈ asked, a.2 ≠ regionName ∧ (a.1 = 1 ∨ a.1 = 2 ∨ a.1 = 3))
    (ht : ∀ a ∈ asked, ∀ b ∈ m.blocks, ∀ x ∈ b.attrs, x.name = a.2 → x.dim = a.1 ∧ x.values.length = b.nb) :
    ∃ rs as, prepare m (brepRegions m) cells (request m asked) = .ok (rs, as) := by
  obtain ⟨rs, hrs, hx⟩ := brep_regions hd hc
  clear hx
  have one : ∀ (dim : Nat) (name : Str), (dim, name) ∈ asked → isDefined m name = true → ∃ a, transfer m cells dim name = .ok a := by
    intro dim name hin hdef
    unfold transfer
    rw [decide_eq_true (hn _ hin).1, check_true, ok_bind]
    have : ∀ c ∈ cells, ∃ v, cellValue m dim name c = .ok v := by
      intro c hcc
      obtain ⟨b, hb, hbi, hlt⟩ := hc c hcc
      have hf : (m.blocks.find? fun b => b.id = c.1) = some b := by
        clear hc hrs ht hdef hn
        generalize m.blocks = bs at hd hb
        induction bs with
        | nil => simp at hb
        | cons x bs ih =>
          rw [List.map_cons, List.nodup_cons] at hd
          rcases List.mem_cons.1 hb with rfl | hb
          · simp [hbi]
          · have : x.id ≠ c.1 := fun e => hd.1 (List.mem_map.2 ⟨b, hb, by rw [hbi, e]⟩)
            rw [List.find?_cons_of_neg (by simpa using this)]
            exact ih hd.2 hb
      obtain ⟨a0, ha0, hna0⟩ := isDefined_iff.1 hdef b hb
      cases hfa : (b.attrs.find? fun a => a.name = name) with
      | none =>
        rw [List.find?_eq_none] at hfa
        exact absurd hna0 (by simpa using hfa a0 ha0)
      | some a =>
        have hain := List.mem_of_find?_eq_some hfa
        have hname : a.name = name := by simpa using List.find?_some hfa
        obtain ⟨t1, t2⟩ := ht _ hin b hb a hain hname
        refine ⟨a.values[c.2]'(by omega), ?_⟩
        unfold cellValue
        rw [hf, ofParse_some, ok_bind, hfa]
        simp only
        rw [if_pos t1, index_of_lt (by omega)]
    have hm : ∃ vs, mapM' (cellValue m dim name) cells = .ok vs := by
      clear hc hrs
      induction cells with
      | nil => exact ⟨[], rfl⟩
      | cons c cells ih =>
        obtain ⟨v, hv⟩ := this c (by simp)
        obtain ⟨vs, hvs⟩ := ih (fun x hx => this x (by simp [hx]))
        exact ⟨v :: vs, by rw [mapM'_cons, hv, ok_bind, hvs]; rfl⟩
    obtain ⟨vs, hvs⟩ := hm
    exact ⟨_, by rw [hvs]; rfl⟩
  have many : ∀ (dim : Nat) (names : List Str), (∀ n ∈ names, (dim, n) ∈ asked ∧ isDefined m n = true) → ∃ as, mapM' (transfer m cells dim) names = .ok as := by
    intro dim names
    induction names with
    | nil => intro _; exact ⟨[], rfl⟩
    | cons n names ih =>
      intro h
      obtain ⟨a, ha⟩ := one dim n (h n (by simp)).1 (h n (by simp)).2
      obtain ⟨as, has⟩ := ih (fun x hx => h x (by simp [hx]))
      exact ⟨a :: as, by rw [mapM'_cons, ha, ok_bind, has]; rfl⟩
  obtain ⟨r1, r2, r3⟩ := requested (m := m) asked
  obtain ⟨a, ha⟩ := many 1 (request m asked).one (by
    rw [r1]; intro n hx
    obtain ⟨⟨d, k⟩, hk, e⟩ := List.mem_map.1 hx
    obtain ⟨h1, h2⟩ := List.mem_filter.1 hk
    simp only [decide_eq_true_eq] at h2 e
    subst e
    rw [← h2.1]; exact ⟨h1, h2.2⟩)
  obtain ⟨b, hb⟩ := many 2 (request m asked).two (by
    rw [r2]; intro n hx
    obtain ⟨⟨d, k⟩, hk, e⟩ := List.mem_map.1 hx
    obtain ⟨h1, h2⟩ := List.mem_filter.1 hk
    simp only [decide_eq_true_eq] at h2 e
    subst e
    rw [← h2.1]; exact ⟨h1, h2.2⟩)
  obtain ⟨c, hc3⟩ := many 3 (request m asked).three (by
    rw [r3]; intro n hx
    obtain ⟨⟨d, k⟩, hk, e⟩ := List.mem_map.1 hx
    obtain ⟨h1, h2⟩ := List.mem_filter.1 hk
    simp only [decide_eq_true_eq] at h2 e
    subst e
    have h3 : d = 3 := by
      rcases (hn _ h1).2 with h | h | h
      · exact absurd h h2.1.1
      · exact absurd h h2.1.2
      · exact h
    subst h3
    exact ⟨h1, h2.2⟩)
  refine ⟨rs, a ++ b ++ c, ?_⟩
  unfold prepare
  rw [hrs, ok_bind, ha, ok_bind, hb, ok_bind, hc3]; rfl

example : prepare (D := Int) ⟨[⟨7, 2, [⟨cs!"p", 1, [[5], [6]]⟩]⟩, ⟨3, 1, [⟨cs!"p", 1, [[8]]⟩]⟩], []⟩ (brepRegions (D := Int) ⟨[⟨7, 2, []⟩, ⟨3, 1, []⟩], []⟩)
    [(7, 0), (7, 1), (3, 0)] (request (D := Int) ⟨[⟨7, 2, [⟨cs!"p", 1, [[5], [6]]⟩]⟩, ⟨3, 1, [⟨cs!"p", 1, [[8]]⟩]⟩], []⟩ [(1, cs!"p"), (1, cs!"q")]) =
    .ok ([0, 0, 1], [⟨cs!"p", 1, [[5], [6], [8]]⟩]) := by decide

/-! ## The list of fields -/

/-- Names separated by commas. -/
def commas : List Str → Str
  | [] => []
  | [n] => n
  | n :: ns => n ++ cs!"," ++ commas ns

/-- The text between commas. -/
def splitCommas : Str → List Str
  | [] => [[]]
  | c :: s =>
    if c = ',' then [] :: splitCommas s
    else match splitCommas s with
      | [] => [[c]]
      | w :: ws => (c :: w) :: ws

theorem appendNames_false (names : List Str) (s : Str) : (appendNames (s, false) names).1 = s ++ names.flatMap (cs!"," ++ ·) ∧ (appendNames (s, false) names).2 = false := by
  unfold appendNames
  induction names generalizing s with
  | nil => simp
  | cons n names ih =>
    rw [List.foldl_cons]
    obtain ⟨i1, i2⟩ := ih (s ++ cs!"," ++ n)
    simp only [Bool.false_eq_true, if_false]
    refine ⟨?_, i2⟩
    rw [i1]; simp

theorem commas_cons (n : Str) (ns : List Str) : commas (n :: ns) = n ++ ns.flatMap (cs!"," ++ ·) := by
  induction ns generalizing n with
  | nil => simp [commas]
  | cons k ns ih => rw [commas, ih]; simp; simp

theorem appendNames_eq (s : Str) (names : List Str) : (appendNames (s, true) names) = (s ++ commas names, names.isEmpty) := by
  cases names with
  | nil => simp [appendNames, commas]
  | cons n names =>
    have e : appendNames (s, true) (n :: names) = appendNames (s ++ n, false) names := by
      unfold appendNames; rw [List.foldl_cons]; simp
    rw [e, commas_cons]
    obtain ⟨h1, h2⟩ := appendNames_false names (s ++ n)
    rw [Prod.ext_iff]
    exact ⟨by rw [h1]; simp, by rw [h2]; rfl⟩

theorem appendNames_append (s : Str × Bool) (a b : List Str) : appendNames (appendNames s a) b = appendNames s (a ++ b) := by
  unfold appendNames; rw [List.foldl_append]

/-- The list of fields has the names of the exported properties, in order, between braces and separated by commas. -/
theorem fields_text (ns : Names) : fieldsToImport ns = cs!"{" ++ commas (ns.one ++ ns.two ++ ns.three) ++ cs!"}" := by
  unfold fieldsToImport
  rw [appendNames_append, appendNames_append, ← List.append_assoc, appendNames_eq]

theorem splitCommas_append (n : Str) (hn : ',' ∉ n) (s : Str) : splitCommas (n ++ ',' :: s) = n :: splitCommas s := by
  induction n with
  | nil => simp [splitCommas]
  | cons c n ih =>
    have hc : c ≠ ',' := fun e => hn (by simp [e])
    rw [List.cons_append, splitCommas, if_neg hc, ih (fun h => hn (by simp [h]))]

theorem splitCommas_word (n : Str) (hn : ',' ∉ n) : splitCommas n = [n] := by
  induction n with
  | nil => rfl
  | cons c n ih =>
    have hc : c ≠ ',' := fun e => hn (by simp [e])
    rw [splitCommas, if_neg hc, ih (fun h => hn (by simp [h]))]

/-- The names are read back from the list of fields when they have no comma. -/
theorem fields_decoded (ns : Names) (hne : ns.one ++ ns.two ++ ns.three ≠ []) (hc : ∀ n ∈ ns.one ++ ns.two ++ ns.three, ',' ∉ n) :
    ∃ s, fieldsToImport ns = cs!"{" ++ s ++ cs!"}" ∧ splitCommas s = ns.one ++ ns.two ++ ns.three := by
  refine ⟨_, fields_text ns, ?_⟩
  generalize ns.one ++ ns.two ++ ns.three = l at hne hc
  induction l with
  | nil => exact absurd rfl hne
  | cons n l ih =>
    cases l with
    | nil => exact splitCommas_word n (hc n (by simp))
    | cons k l =>
      have e : commas (n :: k :: l) = n ++ ',' :: commas (k :: l) := by rw [commas]; simp; simp
      rw [e, splitCommas_append n (hc n (by simp)), ih (by simp) (fun x hx => hc x (by simp [hx]))]

example : fieldsToImport { one := [cs!"p", cs!"q"], three := [cs!"k"] } = cs!"{p,q,k}" ∧ fieldsToImport {} = cs!"{}" := by decide

/-- A name with a comma is read as two fields. -/
theorem comma_splits : splitCommas (commas [cs!"a,b"]) = [cs!"a", cs!"b"] := by decide

/-! ## Boxes of wells -/

section Wells

variable [LinearOrder D]

/-- The point is in the box. -/
def Inside (b : Box D) (p : Pt D) : Prop :=
  ∃ lo hi, b = some (lo, hi) ∧ lo.x ≤ p.x ∧ lo.y ≤ p.y ∧ lo.z ≤ p.z ∧ p.x ≤ hi.x ∧ p.y ≤ hi.y ∧ p.z ≤ hi.z

theorem inside_addPoint_self (b : Box D) (p : Pt D) : Inside (addPoint b p) p := by
  cases b with
  | none => exact ⟨p, p, rfl, le_refl _, le_refl _, le_refl _, le_refl _, le_refl _, le_refl _⟩
  | some e =>
    obtain ⟨lo, hi⟩ := e
    exact ⟨_, _, rfl, min_le_right _ _, min_le_right _ _, min_le_right _ _, le_max_right _ _, le_max_right _ _, le_max_right _ _⟩

theorem inside_addPoint {b : Box D} {q : Pt D} (h : Inside b q) (p : Pt D) : Inside (addPoint b p) q := by
  obtain ⟨lo, hi, rfl, h1, h2, h3, h4, h5, h6⟩ := h
  exact ⟨_, _, rfl, le_trans (min_le_left _ _) h1, le_trans (min_le_left _ _) h2, le_trans (min_le_left _ _) h3,
    le_trans h4 (le_max_left _ _), le_trans h5 (le_max_left _ _), le_trans h6 (le_max_left _ _)⟩

theorem inside_foldl {ps : List (Pt D)} : ∀ {b : Box D} {q : Pt D}, Inside b q → Inside (ps.foldl addPoint b) q := by
  induction ps with
  | nil => intro b q h; exact h
  | cons p ps ih => intro b q h; exact ih (inside_addPoint h p)

theorem inside_foldl_mem {ps : List (Pt D)} : ∀ {b : Box D} {q : Pt D}, q ∈ ps → Inside (ps.foldl addPoint b) q := by
  induction ps with
  | nil => intro b q h; simp at h
  | cons p ps ih =>
    intro b q h
    rcases List.mem_cons.1 h with rfl | h
    · rw [List.foldl_cons]; exact inside_foldl (inside_addPoint_self b q)
    · exact ih h

theorem inside_perforation {corners : Nat → List (Pt D)} {near : Pt D → List Nat} {dist : Pt D → Nat → D} {b : Box D} {q : Pt D} (h : Inside b q) (p : Pt D) :
    Inside (perforation corners near dist b p) q := by
  unfold perforation
  split
  · exact h
  · exact inside_foldl h

theorem selectCell_go (dist : Nat → D) (cells : List Nat) : ∀ b : Nat, ∃ c, (cells.foldl (fun best c => match best with
    | none => some c
    | some b => if dist b < dist c then some b else some c) (some b)) = some c ∧ (c = b ∨ c ∈ cells) ∧ dist c ≤ dist b ∧ ∀ x ∈ cells, dist c ≤ dist x := by
  induction cells with
  | nil => intro b; exact ⟨b, rfl, Or.inl rfl, le_refl _, by simp⟩
  | cons a cells ih =>
    intro b
    rw [List.foldl_cons]
    by_cases h : dist b < dist a
    · obtain ⟨c, h1, h2, h3, h4⟩ := ih b
      refine ⟨c, by simp only [h, if_true]; exact h1, ?_, h3, ?_⟩
      · rcases h2 with h2 | h2
        · exact Or.inl h2
        · exact Or.inr (by simp [h2])
      · intro x hx
        rcases List.mem_cons.1 hx with rfl | hx
        · exact le_of_lt (lt_of_le_of_lt h3 h)
        · exact h4 x hx
    · obtain ⟨c, h1, h2, h3, h4⟩ := ih a
      have hab := not_lt.1 h
      refine ⟨c, by simp only [h, if_false]; exact h1, ?_, le_trans h3 hab, ?_⟩
      · rcases h2 with h2 | h2
        · exact Or.inr (by simp [h2])
        · exact Or.inr (by simp [h2])
      · intro x hx
        rcases List.mem_cons.1 hx with rfl | hx
        · exact h3
        · exact h4 x hx

/-- The cell chosen for a perforation is one of the cells around it, and none of them has a nearer centre. -/
theorem nearest_selected (dist : Nat → D) {cells : List Nat} (h : cells ≠ []) :
    ∃ c ∈ cells, selectCell dist cells = some c ∧ ∀ x ∈ cells, dist c ≤ dist x := by
  cases cells with
  | nil => exact absurd rfl h
  | cons a cells =>
    obtain ⟨c, h1, h2, h3, h4⟩ := selectCell_go dist cells a
    refine ⟨c, ?_, h1, ?_⟩
    · rcases h2 with rfl | h2 <;> simp [*]
    · intro x hx
      rcases List.mem_cons.1 hx with rfl | hx
      · exact h3
      · exact h4 x hx

/-- The cells found around a point have it in their bounding box. -/
def Around (corners : Nat → List (Pt D)) (near : Pt D → List Nat) : Prop := ∀ p, ∀ c ∈ near p,
  (∃ v ∈ corners c, v.x ≤ p.x) ∧ (∃ v ∈ corners c, v.y ≤ p.y) ∧ (∃ v ∈ corners c, v.z ≤ p.z) ∧
  (∃ v ∈ corners c, p.x ≤ v.x) ∧ (∃ v ∈ corners c, p.y ≤ v.y) ∧ (∃ v ∈ corners c, p.z ≤ v.z)

/-- The box of a well contains every perforation that is in the bounding box of a cell. -/
theorem perforations_in_box_partial {corners : Nat → List (Pt D)} {near : Pt D → List Nat} (hn : Around corners near) (dist : Pt D → Nat → D) (well : List (Pt D)) :
    ∀ p ∈ well, near p ≠ [] → Inside (wellBox corners near dist well) p := by
  intro p hp hne
  unfold wellBox
  obtain ⟨a, b, rfl⟩ := List.append_of_mem hp
  rw [List.foldl_append, List.foldl_cons]
  have keep : ∀ (l : List (Pt D)) (bx : Box D), Inside bx p → Inside (l.foldl (perforation corners near dist) bx) p := by
    intro l
    induction l with
    | nil => intro bx h; exact h
    | cons q l ih => intro bx h; exact ih _ (inside_perforation h q)
  apply keep
  generalize a.foldl (perforation corners near dist) none = bx
  obtain ⟨c, hc, hs, _⟩ := nearest_selected (dist p) hne
  unfold perforation
  rw [hs]
  simp only
  obtain ⟨⟨v1, m1, l1⟩, ⟨v2, m2, l2⟩, ⟨v3, m3, l3⟩, ⟨v4, m4, l4⟩, ⟨v5, m5, l5⟩, ⟨v6, m6, l6⟩⟩ := hn p c hc
  obtain ⟨lo, hi, e, a1, _⟩ := inside_foldl_mem (b := bx) m1
  have get : ∀ {v}, v ∈ corners c → lo.x ≤ v.x ∧ lo.y ≤ v.y ∧ lo.z ≤ v.z ∧ v.x ≤ hi.x ∧ v.y ≤ hi.y ∧ v.z ≤ hi.z := by
    intro v hv
    obtain ⟨lo', hi', e', h⟩ := inside_foldl_mem (b := bx) hv
    rw [e] at e'
    cases e'
    exact h
  exact ⟨lo, hi, e, le_trans (get m1).1 l1, le_trans (get m2).2.1 l2, le_trans (get m3).2.2.1 l3,
    le_trans l4 (get m4).2.2.2.1, le_trans l5 (get m5).2.2.2.2.1, le_trans l6 (get m6).2.2.2.2.2⟩

/-- A well whose perforations are all outside the cells gets the initial box, whose minimum is above its maximum. -/
theorem outside_well_empty {corners : Nat → List (Pt D)} {near : Pt D → List Nat} {dist : Pt D → Nat → D} {well : List (Pt D)} (h : ∀ p ∈ well, near p = []) :
    wellBox corners near dist well = none := by
  unfold wellBox
  induction well with
  | nil => rfl
  | cons p well ih =>
    rw [List.foldl_cons]
    have : perforation corners near dist none p = none := by unfold perforation; rw [h p (by simp)]; rfl
    rw [this]
    exact ih fun q hq => h q (by simp [hq])

/-- Witness: a well with a perforation in a cell and another one outside: the box has the first one only. -/
example : wellBox (D := Int) (fun _ => [⟨0, 0, 0⟩, ⟨2, 2, 2⟩]) (fun p => if p.x ≤ 2 then [0] else []) (fun _ _ => 1) [⟨1, 1, 1⟩, ⟨9, 9, 9⟩] =
    some (⟨0, 0, 0⟩, ⟨2, 2, 2⟩) := by decide

end Wells

end Verif.Props.Geos
