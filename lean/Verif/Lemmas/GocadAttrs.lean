import Verif.Lemmas.GocadMesh

/-! # Lemmas on attribute creation and on loading several objects -/

set_option linter.unusedSectionVars false

namespace Verif.GocadMesh

open Verif Verif.Gocad

variable {D : Type} [Num D]

theorem itemsAt_one {vals : List D} {i : Nat} (h : i < vals.length) : itemsAt vals 1 i = .ok [vals[i]] := by
  simp [itemsAt, Res.index_of_lt h]

theorem mapM'_itemsAt_range (vals : List D) :
    Res.mapM' (itemsAt vals 1) (List.range vals.length) = .ok (vals.map fun v => [v]) := by
  have h : ∀ i ∈ List.range vals.length, itemsAt vals 1 i = .ok ((fun i => (vals[i]?).toList) i) := by
    intro i hi
    have hi := List.mem_range.1 hi
    rw [itemsAt_one hi]; simp [hi]
  rw [Res.mapM'_ok h]
  congr 1
  apply List.ext_getElem
  · simp
  · intro i h1 h2
    simp at h1
    simp [h1]

theorem lookup_eq_none {s : Store D} {n : Str} (h : n ∉ s.map Prod.fst) : s.lookup n = none := by
  rw [List.lookup_eq_none_iff]
  intro p hp
  simp only [bne_iff_ne, ne_eq]
  intro e
  exact h (List.mem_map.2 ⟨p, hp, e.symm⟩)

theorem putColumn_new {s : Store D} {n : Str} (h : n ∉ s.map Prod.fst) (c : Column D) : putColumn s n c = s ++ [(n, c)] := by
  induction s with
  | nil => rfl
  | cons p s ih =>
    obtain ⟨k, c'⟩ := p
    simp only [List.map_cons, List.mem_cons, not_or] at h
    rw [putColumn, if_neg (fun e => h.1 e.symm), ih h.2]; rfl

theorem createAttribute_fresh {s : Store D} {n : Str} (h : n ∉ s.map Prod.fst) (nd : D) (vals : List D) :
    createAttribute s n 1 nd vals vals.length (List.range vals.length) =
      .ok (s ++ [(n, ⟨1, nd, vals.map fun v => [v]⟩)]) := by
  unfold createAttribute
  rw [mapM'_itemsAt_range, Res.ok_bind]
  simp only [findOrCreate, lookup_eq_none h, setFrom, List.length_map, List.length_replicate, Nat.le_refl, if_true,
    Res.ok_bind]
  rw [putColumn_new h]
  simp

/-- Fresh scalar attributes are stored as they were read. -/
theorem createAttributes_fresh {α : Type} (as : List α) (name : α → Str) (nd : α → D) (col : α → List D) (n : Nat)
    (hl : ∀ a ∈ as, (col a).length = n) (hn : (as.map name).Nodup) (s : Store D)
    (hs : ∀ a ∈ as, name a ∉ s.map Prod.fst) :
    createAttributes n (List.range n) s (as.map name) (as.map fun _ => 1) (as.map nd) (as.map col) =
      .ok (s ++ as.map fun a => (name a, ⟨1, nd a, (col a).map fun v => [v]⟩)) := by
  induction as generalizing s with
  | nil => simp [createAttributes]
  | cons a as ih =>
    simp only [List.map_cons, List.nodup_cons] at hn
    simp only [List.map_cons, createAttributes]
    have hla := hl a (by simp)
    have h1 := createAttribute_fresh (hs a (by simp)) (nd a) (col a)
    rw [hla] at h1
    rw [h1, Res.ok_bind, ih (fun b hb => hl b (by simp [hb])) hn.2]
    · simp
    · intro b hb
      simp only [List.map_append, List.map_cons, List.map_nil, List.mem_append, List.mem_singleton, not_or]
      refine ⟨hs b (by simp [hb]), fun e => hn.1 (e ▸ List.mem_map.2 ⟨b, hb, rfl⟩)⟩

theorem colOf_length (vs : List Nat) (a : Attr D) : (colOf vs a).length = vs.length := by simp [colOf]

/-! ## The attribute step never fails on values read from a file -/

/-- Every column holds one value per vertex. -/
def StoreOk (nb : Nat) (s : Store D) : Prop := ∀ p ∈ s, p.2.vals.length = nb

theorem growStore_ok {nb nb' : Nat} (h : nb ≤ nb') {s : Store D} (hs : StoreOk nb s) : StoreOk nb' (growStore nb' s) := by
  intro p hp
  obtain ⟨q, hq, rfl⟩ := List.mem_map.1 hp
  have := hs q hq
  simp only [List.length_append, List.length_replicate]
  omega

theorem mem_of_lookup {s : Store D} {n : Str} {c : Column D} (h : s.lookup n = some c) : (n, c) ∈ s := by
  induction s with
  | nil => simp at h
  | cons p s ih =>
    obtain ⟨k, c'⟩ := p
    rw [List.lookup_cons] at h
    split at h
    · next hk =>
      simp only [beq_iff_eq] at hk
      simp only [Option.some.injEq] at h
      subst hk; subst h; simp
    · exact List.mem_cons_of_mem _ (ih h)

theorem findOrCreate_length {nb : Nat} {s : Store D} (hs : StoreOk nb s) (n : Str) (e : Nat) (d : D) :
    (findOrCreate s n e d nb).vals.length = nb := by
  unfold findOrCreate
  cases h : s.lookup n with
  | none => simp
  | some c =>
    simp only
    split
    · exact hs _ (mem_of_lookup h)
    · simp

theorem putColumn_ok {nb : Nat} {s : Store D} (hs : StoreOk nb s) (n : Str) {c : Column D} (hc : c.vals.length = nb) :
    StoreOk nb (putColumn s n c) := by
  induction s with
  | nil => intro p hp; simp [putColumn] at hp; subst hp; exact hc
  | cons q s ih =>
    obtain ⟨k, c'⟩ := q
    have h1 : StoreOk nb s := fun p hp => hs p (by simp [hp])
    have h2 := hs (k, c') (by simp)
    intro p hp
    rw [putColumn] at hp
    split at hp
    · rcases List.mem_cons.1 hp with rfl | hp
      · exact hc
      · exact h1 p hp
    · rcases List.mem_cons.1 hp with rfl | hp
      · exact h2
      · exact ih h1 p hp

theorem mapM'_total {α β : Type} {f : α → Res β} {l : List α} (h : ∀ a ∈ l, ∃ b, f a = .ok b) :
    ∃ bs, Res.mapM' f l = .ok bs ∧ bs.length = l.length := by
  induction l with
  | nil => exact ⟨[], rfl, rfl⟩
  | cons a as ih =>
    obtain ⟨b, hb⟩ := h a (by simp)
    obtain ⟨bs, hbs, hl⟩ := ih (fun x hx => h x (by simp [hx]))
    exact ⟨b :: bs, by simp [hb, hbs], by simp [hl]⟩

theorem createAttribute_total {nb n : Nat} {s : Store D} (hs : StoreOk nb s) (hn : n ≤ nb) (name : Str) (e : Nat) (d : D)
    {vals : List D} (hv : vals.length = n * e) :
    ∃ s', createAttribute s name e d vals nb (List.range n) = .ok s' ∧ StoreOk nb s' := by
  unfold createAttribute
  have h1 : ∀ i ∈ List.range n, ∃ b, itemsAt vals e i = .ok b := by
    intro i hi
    have hi := List.mem_range.1 hi
    obtain ⟨b, hb, _⟩ := mapM'_total (f := Res.index vals) (l := List.range' (i * e) e) (by
      intro j hj
      have hj := List.mem_range'_1.1 hj
      have : j < vals.length := by
        have : (i + 1) * e ≤ n * e := Nat.mul_le_mul_right e hi
        rw [Nat.succ_mul] at this
        omega
      exact ⟨_, Res.index_of_lt this⟩)
    exact ⟨b, hb⟩
  obtain ⟨items, hi, hl⟩ := mapM'_total h1
  have hc := findOrCreate_length hs name e d
  rw [hi, Res.ok_bind]
  simp only [List.length_range] at hl
  have hle : items.length ≤ (findOrCreate s name e d nb).vals.length := by omega
  simp only [setFrom, if_pos hle, Res.ok_bind]
  refine ⟨_, rfl, putColumn_ok hs name ?_⟩
  simp only [List.length_append, List.length_drop]
  omega

theorem createAttributes_total {nb n : Nat} (hn : n ≤ nb) (names : List Str) (es : List Nat) (ds : List D)
    (vs : List (List D)) (s : Store D) (hs : StoreOk nb s) (h1 : es.length = names.length) (h2 : ds.length = names.length)
    (h3 : vs.length = names.length) (hv : ∀ (i e : Nat) (v : List D), es[i]? = some e → vs[i]? = some v → v.length = n * e) :
    ∃ s', createAttributes nb (List.range n) s names es ds vs = .ok s' ∧ StoreOk nb s' := by
  induction names generalizing s es ds vs with
  | nil => exact ⟨s, by simp [createAttributes], hs⟩
  | cons k ns ih =>
    cases es with
    | nil => simp at h1
    | cons e es =>
      cases ds with
      | nil => simp at h2
      | cons d ds =>
        cases vs with
        | nil => simp at h3
        | cons v vs =>
          obtain ⟨s', e1, ok1⟩ := createAttribute_total hs hn k e d (hv 0 e v rfl rfl)
          simp only [createAttributes, e1, Res.ok_bind]
          exact ih es ds vs s' ok1 (by simpa using h1) (by simpa using h2) (by simpa using h3)
            (fun i e' v' he hv' => hv (i + 1) e' v' (by simpa using he) (by simpa using hv'))

end Verif.GocadMesh
