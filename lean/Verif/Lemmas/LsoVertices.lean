import Verif.Model.Lso
import Verif.Lemmas.Sides
import Mathlib.Data.List.Forall2
import Mathlib.Data.List.Nodup
import Mathlib.Data.List.Perm.Subperm

/-!
# Numbers of the vertices of a saved solid
-/

namespace Verif.Lso

open Verif Verif.Gocad Verif.Sides Res

variable {D : Type} [Num D]

/-- The vertices of blocks at a unique vertex. -/
def blockVertices (c : List Cmv) : List Cmv := c.filter Cmv.isBlock

/-- The vertex that is written with its coordinates. -/
def mainOf (c : List Cmv) : List Cmv := ((blockVertices c)[firstBlock (blockVertices c)]?).toList

/-- The vertices that refer to it. -/
def othersOf (c : List Cmv) : List Cmv := (blockVertices c).eraseIdx (firstBlock (blockVertices c))

/-- The vertices written with coordinates. -/
def mains (cs : List (List Cmv)) : List Cmv := cs.flatMap mainOf

/-- The vertices written as references, with the rank of the unique vertex. -/
def sharedFrom : Nat → List (List Cmv) → List (Nat × Cmv)
  | _, [] => []
  | v, c :: cs => (othersOf c).map (fun o => (v, o)) ++ sharedFrom (v + 1) cs

/-- The vertices in the order of the file. -/
def order (m : Model D) : List Cmv := mains m.uniques ++ (sharedFrom 0 m.uniques).map Prod.snd

theorem firstBlock_lt {l : List Cmv} (h : l ≠ []) : firstBlock l < l.length := by
  induction l with
  | nil => exact absurd rfl h
  | cons a l ih =>
    cases l with
    | nil => simp [firstBlock]
    | cons b r =>
      have := ih (by simp)
      unfold firstBlock
      dsimp only
      split
      · split
        · simp at this ⊢; omega
        · simp
      · simp

/-- The block found has the smallest identifier. -/
theorem firstBlock_min : ∀ {l : List Cmv} {x y : Cmv}, l[firstBlock l]? = some x → y ∈ l → x.id ≤ y.id
  | [], x, y, _, hy => by simp at hy
  | [a], x, y, hx, hy => by
    rw [List.mem_singleton.1 hy]
    cases hx
    exact Nat.le_refl _
  | a :: b :: r, x, y, hx, hy => by
    have hlt := firstBlock_lt (l := b :: r) (by simp)
    have hc : (b :: r)[firstBlock (b :: r)]? = some (b :: r)[firstBlock (b :: r)] := List.getElem?_eq_getElem hlt
    have ih : ∀ z ∈ b :: r, (b :: r)[firstBlock (b :: r)].id ≤ z.id := fun z hz => firstBlock_min hc hz
    have e : firstBlock (a :: b :: r) = if (b :: r)[firstBlock (b :: r)].id < a.id then firstBlock (b :: r) + 1 else 0 := by
      rw [firstBlock]
      simp only [hc]
    rw [e] at hx
    split at hx
    · rename_i h
      rw [List.getElem?_cons_succ, hc] at hx
      cases hx
      rcases List.mem_cons.1 hy with rfl | hy
      · omega
      · exact ih y hy
    · rename_i h
      cases hx
      rcases List.mem_cons.1 hy with rfl | hy
      · exact Nat.le_refl _
      · have := ih y hy
        omega

theorem mainOf_eq {c : List Cmv} (h : blockVertices c ≠ []) : ∃ x, (blockVertices c)[firstBlock (blockVertices c)]? = some x ∧ mainOf c = [x] := by
  have := firstBlock_lt h
  exact ⟨(blockVertices c)[firstBlock (blockVertices c)], List.getElem?_eq_getElem this, by simp [mainOf, List.getElem?_eq_getElem this]⟩

theorem main_others_perm (c : List Cmv) : (mainOf c ++ othersOf c).Perm (blockVertices c) := by
  by_cases h : blockVertices c = []
  · simp [mainOf, othersOf, h]
  · have := firstBlock_lt h
    unfold mainOf othersOf
    rw [List.getElem?_eq_getElem this]
    exact List.getElem_cons_eraseIdx_perm this

theorem order_perm_aux (v : Nat) (cs : List (List Cmv)) :
    (mains cs ++ (sharedFrom v cs).map Prod.snd).Perm (cs.flatMap blockVertices) := by
  induction cs generalizing v with
  | nil => simp [mains, sharedFrom]
  | cons c cs ih =>
    have e : ((othersOf c).map (fun o => (v, o))).map Prod.snd = othersOf c := by
      rw [List.map_map]; exact List.map_id'' (fun _ => rfl) _
    simp only [mains, sharedFrom, List.flatMap_cons, List.map_append, e]
    have h1 : (mainOf c ++ List.flatMap mainOf cs ++ (othersOf c ++ (sharedFrom (v + 1) cs).map Prod.snd)).Perm
        ((mainOf c ++ othersOf c) ++ (List.flatMap mainOf cs ++ (sharedFrom (v + 1) cs).map Prod.snd)) := by
      rw [List.append_assoc, List.append_assoc]
      refine List.Perm.append_left _ ?_
      rw [← List.append_assoc, ← List.append_assoc]
      exact List.Perm.append_right _ List.perm_append_comm
    exact h1.trans ((main_others_perm c).append (ih (v + 1)))

theorem order_perm (m : Model D) : (order m).Perm (m.uniques.flatMap blockVertices) := order_perm_aux 0 m.uniques

/-- The numbers of the vertices at each unique vertex. -/
def tables : Nat → Nat → List (List Cmv) → List (List (Cmv × Nat))
  | _, _, [] => []
  | v, nb, c :: cs =>
    ((othersOf c).zipIdx (nb + 1)).foldl (fun a e => emplace a e.1 e.2) ((mainOf c).map fun x => (x, v + 1))
      :: tables (v + 1) (nb + (othersOf c).length) cs

/-- Point of a vertex of a block. -/
def PointOf (m : Model D) (c : Cmv) (p : Pt D) : Prop := ∃ b, m.blocks.find? (fun b => b.id = c.id) = some b ∧ b.points[c.vertex]? = some p

/-- The `VRTX` lines, numbered from `n`. -/
def vrtxLines : Nat → List (Pt D) → File
  | _, [] => []
  | n, p :: ps => (cs!"VRTX" ++ spaced (showNat n :: p.toks)) :: vrtxLines (n + 1) ps

theorem ofParse_eq_ok {α : Type} {o : Option α} {a : α} : Res.ofParse o = .ok a ↔ o = some a := by
  cases o <;> simp [Res.ofParse]

theorem writeVertex_ok {m : Model D} {st st' : VState} {v : Nat} {c : List Cmv} (h : writeVertex m st v c = .ok st') :
    ∃ x p, mainOf c = [x] ∧ PointOf m x p ∧
      st' = { vertices := st.vertices ++ [((othersOf c).zipIdx (st.nb + 1)).foldl (fun a e => emplace a e.1 e.2) ((mainOf c).map fun x => (x, v + 1))]
              nb := st.nb + (othersOf c).length
              atoms := st.atoms ++ (othersOf c).map (fun _ => v + 1)
              lines := st.lines ++ [cs!"VRTX" ++ spaced (showNat (v + 1) :: p.toks)] } := by
  unfold writeVertex at h
  obtain ⟨x, hx, h2⟩ := bind_eq_ok.1 h
  obtain ⟨b, hb, h3⟩ := bind_eq_ok.1 h2
  obtain ⟨p, hp, h4⟩ := bind_eq_ok.1 h3
  have hx' := index_eq_ok.1 hx
  have e : mainOf c = [x] := by unfold mainOf; change ((c.filter Cmv.isBlock)[firstBlock (c.filter Cmv.isBlock)]?).toList = _; rw [hx']; rfl
  refine ⟨x, p, e, ⟨b, ofParse_eq_ok.1 hb, index_eq_ok.1 hp⟩, ?_⟩
  rw [e]
  exact (Res.ok.inj h4).symm

theorem writeVerticesFrom_ok {m : Model D} {cs : List (List Cmv)} : ∀ {st st' : VState} {v : Nat}, writeVerticesFrom m st v cs = .ok st' →
    ∃ ps, List.Forall₂ (PointOf m) (mains cs) ps ∧ (∀ c ∈ cs, ∃ x, mainOf c = [x]) ∧
      st' = { vertices := st.vertices ++ tables v st.nb cs
              nb := st.nb + (sharedFrom v cs).length
              atoms := st.atoms ++ (sharedFrom v cs).map (fun e => e.1 + 1)
              lines := st.lines ++ vrtxLines (v + 1) ps } := by
  induction cs with
  | nil =>
    intro st st' v h
    refine ⟨[], by simp [mains], by simp, ?_⟩
    have := Res.ok.inj h
    subst this
    simp [tables, sharedFrom, vrtxLines]
  | cons c cs ih =>
    intro st st' v h
    obtain ⟨st1, h1, h2⟩ := bind_eq_ok.1 h
    obtain ⟨x, p, hx, hp, e⟩ := writeVertex_ok h1
    obtain ⟨ps, hps, hall, e'⟩ := ih h2
    refine ⟨p :: ps, ?_, ?_, ?_⟩
    · simp only [mains, List.flatMap_cons, hx, List.singleton_append]
      exact List.Forall₂.cons hp hps
    · intro d hd
      rcases List.mem_cons.1 hd with rfl | hd
      · exact ⟨x, hx⟩
      · exact hall d hd
    · rw [e', e]
      simp [tables, sharedFrom, vrtxLines, Nat.add_assoc, List.append_assoc, List.map_map, Function.comp_def]

theorem find_zipIdx (l : List Cmv) (n : Nat) (c : Cmv) : find (l.zipIdx n) c = if c ∈ l then some (n + l.idxOf c) else none := by
  induction l generalizing n with
  | nil => simp [find]
  | cons a l ih =>
    simp only [List.zipIdx_cons, find, ih]
    by_cases h : a = c
    · subst h; simp
    · rw [if_neg h]
      by_cases hm : c ∈ l
      · rw [if_pos hm, if_pos (List.mem_cons_of_mem _ hm), List.idxOf_cons]
        have : (a == c) = false := by simpa using h
        rw [this]; simp; omega
      · rw [if_neg hm, if_neg]
        intro hc
        rcases List.mem_cons.1 hc with e | e
        · exact h e.symm
        · exact hm e

theorem find_table (v nb : Nat) (c : List Cmv) {x : Cmv} (hx : mainOf c = [x]) (y : Cmv) :
    find (((othersOf c).zipIdx (nb + 1)).foldl (fun a e => emplace a e.1 e.2) ((mainOf c).map fun x => (x, v + 1))) y
      = if y = x then some (v + 1) else if y ∈ othersOf c then some (nb + 1 + (othersOf c).idxOf y) else none := by
  rw [find_foldl (fun e : Cmv × Nat => e)]
  have e : ((othersOf c).zipIdx (nb + 1)).map (fun e => e) = (othersOf c).zipIdx (nb + 1) := List.map_id' _
  rw [e, find_zipIdx, hx]
  simp only [List.map_cons, List.map_nil, find]
  by_cases h : y = x
  · subst h; simp
  · rw [if_neg (fun e => h e.symm), if_neg h]; simp

theorem mem_blockVertices_iff {c : List Cmv} {y : Cmv} : y ∈ blockVertices c ↔ y ∈ mainOf c ∨ y ∈ othersOf c := by
  rw [← (main_others_perm c).mem_iff, List.mem_append]

theorem mem_shared {v : Nat} {cs : List (List Cmv)} {u : Nat} {y : Cmv} :
    (u, y) ∈ sharedFrom v cs ↔ ∃ k c, cs[k]? = some c ∧ u = v + k ∧ y ∈ othersOf c := by
  induction cs generalizing v with
  | nil => simp [sharedFrom]
  | cons c cs ih =>
    simp only [sharedFrom, List.mem_append, List.mem_map, ih]
    constructor
    · rintro (⟨o, ho, e⟩ | ⟨k, d, hk, e, hd⟩)
      · cases e; exact ⟨0, c, rfl, rfl, ho⟩
      · exact ⟨k + 1, d, by simpa using hk, by omega, hd⟩
    · rintro ⟨k, d, hk, e, hd⟩
      cases k with
      | zero =>
        simp only [List.getElem?_cons_zero, Option.some.injEq] at hk
        subst hk
        exact Or.inl ⟨y, hd, by simp [e]⟩
      | succ k => exact Or.inr ⟨k, d, by simpa using hk, by omega, hd⟩

/-- The number of a vertex in the tables. -/
theorem find_tables {cs : List (List Cmv)} (hn : (cs.flatMap blockVertices).Nodup) (hm : ∀ c ∈ cs, ∃ x, mainOf c = [x]) :
    ∀ (v nb k : Nat) (c : List Cmv) (y : Cmv), cs[k]? = some c → y ∈ blockVertices c →
      ∃ l, (tables v nb cs)[k]? = some l ∧
        ((mainOf c = [y] ∧ find l y = some (v + k + 1)) ∨
         (y ∈ othersOf c ∧ find l y = some (nb + 1 + ((sharedFrom v cs).map Prod.snd).idxOf y))) := by
  induction cs with
  | nil => intro v nb k c y h; simp at h
  | cons d cs ih =>
    intro v nb k c y hk hy
    rw [List.flatMap_cons, List.nodup_append'] at hn
    obtain ⟨hd, hr, hdis⟩ := hn
    have e : ((othersOf d).map (fun o => (v, o))).map Prod.snd = othersOf d := by
      rw [List.map_map]; exact List.map_id'' (fun _ => rfl) _
    cases k with
    | zero =>
      simp only [List.getElem?_cons_zero, Option.some.injEq] at hk
      subst hk
      obtain ⟨x, hx⟩ := hm d (by simp)
      refine ⟨_, rfl, ?_⟩
      rw [find_table v nb d hx]
      by_cases hyx : y = x
      · subst hyx; left; exact ⟨hx, by simp⟩
      · right
        have ho : y ∈ othersOf d := by
          rcases mem_blockVertices_iff.1 hy with h | h
          · rw [hx] at h; simp at h; exact absurd h hyx
          · exact h
        refine ⟨ho, ?_⟩
        rw [if_neg hyx, if_pos ho, sharedFrom, List.map_append, e, List.idxOf_append_of_mem ho]
    | succ k =>
      have hk' : cs[k]? = some c := by simpa using hk
      obtain ⟨l, hl, hf⟩ := ih hr (fun c hc => hm c (List.mem_cons_of_mem _ hc)) (v + 1) (nb + (othersOf d).length) k c y hk' hy
      refine ⟨l, by simpa [tables] using hl, ?_⟩
      rcases hf with ⟨h1, h2⟩ | ⟨h1, h2⟩
      · left; refine ⟨h1, ?_⟩; rw [h2]; congr 1; omega
      · right; refine ⟨h1, ?_⟩
        have hnd : y ∉ othersOf d := by
          intro h
          refine hdis (mem_blockVertices_iff.2 (Or.inr h)) ?_
          exact List.mem_flatMap.2 ⟨c, List.mem_of_getElem? hk', hy⟩
        rw [h2, sharedFrom, List.map_append, e, List.idxOf_append_of_notMem hnd]
        congr 1; omega

/-- Every component mesh vertex is at one unique vertex. -/
def Once (m : Model D) : Prop := m.uniques.flatten.Nodup

theorem Once.blocks {m : Model D} (h : Once m) : (m.uniques.flatMap blockVertices).Nodup := by
  have : m.uniques.flatMap blockVertices = m.uniques.flatten.filter Cmv.isBlock := by
    rw [List.filter_flatten, List.flatMap_def]; rfl
  rw [this]
  exact List.Nodup.filter _ h

theorem Once.unique {m : Model D} (h : Once m) {u : Nat} {l : List Cmv} {c : Cmv} (hu : m.uniques[u]? = some l) (hc : c ∈ l) :
    uniqueOf m c = u := by
  unfold Once at h
  unfold uniqueOf
  have : m.uniques.findIdx? (fun l => l.contains c) = some u := by
    generalize m.uniques = us at h hu
    induction us generalizing u with
    | nil => simp at hu
    | cons a us ih =>
      rw [List.flatten_cons, List.nodup_append'] at h
      rw [List.findIdx?_cons]
      cases u with
      | zero =>
        simp only [List.getElem?_cons_zero, Option.some.injEq] at hu
        subst hu
        simp [hc]
      | succ u =>
        have hu' : us[u]? = some l := by simpa using hu
        have hn : c ∉ a := fun ha => h.2.2 ha (List.mem_flatten.2 ⟨l, List.mem_of_getElem? hu', hc⟩)
        have : a.contains c = false := by simpa using hn
        rw [this, ih h.2.1 hu']
        simp
  rw [this]; rfl

theorem mains_length {cs : List (List Cmv)} (hm : ∀ c ∈ cs, ∃ x, mainOf c = [x]) : (mains cs).length = cs.length := by
  induction cs with
  | nil => rfl
  | cons c cs ih =>
    obtain ⟨x, hx⟩ := hm c (by simp)
    have := ih fun c hc => hm c (List.mem_cons_of_mem _ hc)
    simp only [mains] at this ⊢
    simp [List.flatMap_cons, hx, this]

theorem mains_getElem? {cs : List (List Cmv)} (hm : ∀ c ∈ cs, ∃ x, mainOf c = [x]) {k : Nat} {c : List Cmv} {x : Cmv} (hk : cs[k]? = some c)
    (hx : mainOf c = [x]) : (mains cs)[k]? = some x := by
  induction cs generalizing k with
  | nil => simp at hk
  | cons d cs ih =>
    obtain ⟨y, hy⟩ := hm d (by simp)
    have := @ih fun c hc => hm c (List.mem_cons_of_mem _ hc)
    cases k with
    | zero =>
      simp only [List.getElem?_cons_zero, Option.some.injEq] at hk
      subst hk
      rw [hx] at hy
      cases hy
      simp [mains, hx]
    | succ k =>
      have := this (k := k) (by simpa using hk)
      simp only [mains] at this ⊢
      simp [List.flatMap_cons, hy, this]

theorem mains_sub {cs : List (List Cmv)} {x : Cmv} (h : x ∈ mains cs) : x ∈ cs.flatMap blockVertices := by
  obtain ⟨c, hc, hx⟩ := List.mem_flatMap.1 h
  exact List.mem_flatMap.2 ⟨c, hc, mem_blockVertices_iff.2 (Or.inl hx)⟩

/-- The number that a tetrahedron line has for a vertex is one plus its rank in the file. -/
theorem vertexNumber_eq {m : Model D} (ho : Once m) (hm : ∀ c ∈ m.uniques, ∃ x, mainOf c = [x]) {y : Cmv} (hy : y ∈ order m) :
    vertexNumber m (tables 0 m.uniques.length m.uniques) y = .ok ((order m).idxOf y + 1) := by
  have hb := (order_perm m).mem_iff.1 hy
  have hnd : (order m).Nodup := (order_perm m).nodup_iff.2 ho.blocks
  obtain ⟨c, hc, hyc⟩ := List.mem_flatMap.1 hb
  obtain ⟨k, hk⟩ := List.mem_iff_getElem?.1 hc
  have hyc' : y ∈ c := (List.mem_filter.1 hyc).1
  obtain ⟨l, hl, hf⟩ := find_tables ho.blocks hm 0 m.uniques.length k c y hk hyc
  unfold vertexNumber
  rw [ho.unique hk hyc', at_eq_ok.2 hl, ok_bind]
  rcases hf with ⟨h1, h2⟩ | ⟨h1, h2⟩
  · rw [h2]
    have h3 : (order m)[k]? = some y := by
      unfold order
      rw [List.getElem?_append_left, mains_getElem? hm hk h1]
      rw [mains_length hm]; exact (List.getElem?_eq_some_iff.1 hk).1
    obtain ⟨hlt, he⟩ := List.getElem?_eq_some_iff.1 h3
    have : (order m).idxOf y = k := by rw [← he]; exact List.Nodup.idxOf_getElem hnd k hlt
    rw [this]; simp
  · rw [h2]
    have hs : y ∈ (sharedFrom 0 m.uniques).map Prod.snd := List.mem_map.2 ⟨(k, y), mem_shared.2 ⟨k, c, hk, by omega, h1⟩, rfl⟩
    have hnm : y ∉ mains m.uniques := by
      intro h
      unfold order at hnd
      rw [List.nodup_append'] at hnd
      exact hnd.2.2 h hs
    unfold order
    rw [List.idxOf_append_of_notMem hnm, mains_length hm]
    simp; omega

theorem vertexNumber_ok {m : Model D} {vs : List (List (Cmv × Nat))} {y : Cmv} {n : Nat} (h : vertexNumber m vs y = .ok n) :
    ∃ l, vs[uniqueOf m y]? = some l ∧ find l y = some n := by
  obtain ⟨l, hl, h2⟩ := bind_eq_ok.1 h
  exact ⟨l, at_eq_ok.1 hl, ofParse_eq_ok.1 h2⟩

theorem tables_keys {cs : List (List Cmv)} {v nb k : Nat} {l : List (Cmv × Nat)} {y : Cmv} {n : Nat} (hm : ∀ c ∈ cs, ∃ x, mainOf c = [x])
    (hl : (tables v nb cs)[k]? = some l) (hf : find l y = some n) : ∃ c, cs[k]? = some c ∧ y ∈ blockVertices c := by
  induction cs generalizing v nb k with
  | nil => simp [tables] at hl
  | cons c cs ih =>
    cases k with
    | zero =>
      refine ⟨c, rfl, ?_⟩
      simp only [tables, List.getElem?_cons_zero, Option.some.injEq] at hl
      obtain ⟨x, hx⟩ := hm c (by simp)
      rw [← hl, find_table v nb c hx] at hf
      rw [mem_blockVertices_iff, hx]
      split at hf
      · next h => left; simp [h]
      · split at hf
        · next h => right; exact h
        · cases hf
    | succ k =>
      simp only [tables, List.getElem?_cons_succ] at hl
      obtain ⟨d, hd, h⟩ := ih (fun c hc => hm c (List.mem_cons_of_mem _ hc)) hl
      exact ⟨d, by simpa using hd, h⟩

/-- Only vertices at a unique vertex have a number. -/
theorem vertexNumber_mem {m : Model D} (hm : ∀ c ∈ m.uniques, ∃ x, mainOf c = [x]) {y : Cmv} {n : Nat}
    (h : vertexNumber m (tables 0 m.uniques.length m.uniques) y = .ok n) : y ∈ order m := by
  obtain ⟨l, hl, hf⟩ := vertexNumber_ok h
  obtain ⟨c, hc, hy⟩ := tables_keys hm hl hf
  exact (order_perm m).mem_iff.2 (List.mem_flatMap.2 ⟨c, List.mem_of_getElem? hc, hy⟩)

theorem writeVertices_ok {m : Model D} {vs : List (List (Cmv × Nat))} {ls : File} (h : writeVertices m = .ok (vs, ls)) :
    ∃ ps, List.Forall₂ (PointOf m) (mains m.uniques) ps ∧ (∀ c ∈ m.uniques, ∃ x, mainOf c = [x]) ∧
      vs = tables 0 m.uniques.length m.uniques ∧
      ls = vrtxLines 1 ps ++ sharedLines (m.uniques.length + 1) ((sharedFrom 0 m.uniques).map fun e => e.1 + 1) := by
  obtain ⟨st, h1, h2⟩ := bind_eq_ok.1 h
  obtain ⟨ps, hp, hm, e⟩ := writeVerticesFrom_ok h1
  have h3 := Res.ok.inj h2
  rw [e] at h3
  cases h3
  exact ⟨ps, hp, hm, by simp, by simp⟩

end Verif.Lso
