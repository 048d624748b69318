import Verif.Lemmas.LsoPoints

/-!
# Facets of the solid and triangles of the surfaces
-/

namespace Verif.Lso

open Verif Verif.Gocad Verif.GocadMesh Verif.Sides Res

variable {D : Type} [Num D]

/-! ## Keys -/

theorem facetKey_cons (a : Nat) (t : List Nat) :
    facetKey (a :: t) = (facetKey t).filter (· ≤ a) ++ a :: (facetKey t).filter fun b => !(b ≤ a) := rfl

theorem facetKey_perm (t : List Nat) : (facetKey t).Perm t := by
  induction t with
  | nil => exact List.Perm.nil
  | cons a t ih =>
    rw [facetKey_cons]
    refine List.perm_middle.trans (List.Perm.cons a ?_)
    exact (List.filter_append_perm (fun b => decide (b ≤ a)) (facetKey t)).trans ih

theorem facetKey_sorted (t : List Nat) : (facetKey t).Pairwise (· ≤ ·) := by
  induction t with
  | nil => exact List.Pairwise.nil
  | cons a t ih =>
    rw [facetKey_cons, List.pairwise_append]
    refine ⟨ih.filter _, List.pairwise_cons.2 ⟨?_, ih.filter _⟩, ?_⟩
    · intro b hb
      have := (List.mem_filter.1 hb).2
      simp at this; omega
    · intro x hx y hy
      have hxa : x ≤ a := by simpa using (List.mem_filter.1 hx).2
      rcases List.mem_cons.1 hy with rfl | hy
      · exact hxa
      · have := (List.mem_filter.1 hy).2
        simp at this; omega

theorem facetKey_eq_iff {t u : List Nat} : facetKey t = facetKey u ↔ t.Perm u := by
  constructor
  · intro h
    exact (facetKey_perm t).symm.trans (h ▸ facetKey_perm u)
  · intro h
    refine List.Perm.eq_of_pairwise (le := (· ≤ ·)) ?_ (facetKey_sorted t) (facetKey_sorted u) ((facetKey_perm t).trans (h.trans (facetKey_perm u).symm))
    intro a b _ _ h1 h2
    exact Nat.le_antisymm h1 h2

/-- A list whose images are a permutation of another one can be permuted to have them. -/
theorem perm_map {β : Type} {f : Nat → β} : ∀ {u : List β} {l : List Nat}, (l.map f).Perm u → ∃ l' : List Nat, l'.Perm l ∧ l'.map f = u := by
  intro u
  induction u with
  | nil =>
    intro l h
    have : l = [] := List.map_eq_nil_iff.1 (List.Perm.eq_nil h)
    exact ⟨[], by rw [this], rfl⟩
  | cons x u ih =>
    intro l h
    have hx : x ∈ l.map f := h.symm.subset (by simp)
    obtain ⟨a, ha, rfl⟩ := List.mem_map.1 hx
    have hp := List.perm_cons_erase ha
    have h2 : ((l.erase a).map f).Perm u := by
      have : (f a :: (l.erase a).map f).Perm (f a :: u) := ((hp.map f).symm).trans h
      exact List.Perm.cons_inv this
    obtain ⟨l', h3, h4⟩ := ih h2
    exact ⟨a :: l', (List.Perm.cons a h3).trans hp.symm, by rw [List.map_cons, h4]⟩

/-! ## Facets with given unique vertices -/

/-- The four triples of vertices of a tetrahedron. -/
def triples : List Nat → List (List Nat)
  | [a, b, c, d] => [[b, c, d], [a, c, d], [a, b, d], [a, b, c]]
  | _ => []

theorem facets_eq (t : List Nat) : facets t = (triples t).map facetKey := by
  match t with
  | [] => rfl
  | [_] => rfl
  | [_, _] => rfl
  | [_, _, _] => rfl
  | [_, _, _, _] => rfl
  | _ :: _ :: _ :: _ :: _ :: _ => rfl

theorem triples_map (f : Nat → Nat) (t : List Nat) : triples (t.map f) = (triples t).map (List.map f) := by
  match t with
  | [] => rfl
  | [_] => rfl
  | [_, _] => rfl
  | [_, _, _] => rfl
  | [_, _, _, _] => rfl
  | _ :: _ :: _ :: _ :: _ :: _ => rfl

theorem triples_sub {t f : List Nat} (h : f ∈ triples t) : ∀ v ∈ f, v ∈ t := by
  unfold triples at h
  split at h
  · simp only [List.mem_cons, List.not_mem_nil, or_false] at h
    rcases h with rfl | rfl | rfl | rfl <;> simp <;> tauto
  · simp at h

/-- Unique vertex of a vertex of the solid. -/
def idOf (s : Solid D) (v : Nat) : Nat := s.ids[v]?.getD 0

theorem mem_copies {s : Solid D} {u : Nat} {l : List Nat} (h : copies s u = .ok l) (v : Nat) : v ∈ l ↔ s.ids[v]? = some u := by
  unfold copies at h
  split at h
  · have := Res.ok.inj h
    subst this
    rw [List.mem_filter]
    constructor
    · rintro ⟨_, h⟩; simpa using h
    · intro h
      exact ⟨List.mem_range.2 (List.getElem?_eq_some_iff.1 h).1, by simpa using h⟩
  · cases h

/-- The facets of the solid at a triangle are the facets of its tetrahedra whose unique vertices are those of the triangle. -/
theorem mem_solidFacets {s : Solid D} {t : List Nat} (ht : GoodTriangle s t) {f : List Nat} (hf : ∀ v ∈ f, v < s.ids.length)
    (hs : ∃ c ∈ s.tetras, f ∈ triples c) : facetKey f ∈ solidFacets s t ↔ (f.map (idOf s)).Perm t := by
  obtain ⟨h3, hv⟩ := ht
  match t, h3, hv with
  | [a, b, c], _, hv =>
    have ha : a < s.nbUnique := (hv a (by simp)).1
    have hb : b < s.nbUnique := (hv b (by simp)).1
    have hc : c < s.nbUnique := (hv c (by simp)).1
    obtain ⟨as, ea⟩ : ∃ l, copies s a = .ok l := by unfold copies; rw [if_pos ha]; exact ⟨_, rfl⟩
    obtain ⟨bs, eb⟩ : ∃ l, copies s b = .ok l := by unfold copies; rw [if_pos hb]; exact ⟨_, rfl⟩
    obtain ⟨cs, ec⟩ : ∃ l, copies s c = .ok l := by unfold copies; rw [if_pos hc]; exact ⟨_, rfl⟩
    have e : solidFacets s [a, b, c] =
        (as.flatMap fun a => bs.flatMap fun b => cs.map fun c => facetKey [a, b, c]).filter fun k => s.tetras.any fun t => (facets t).contains k := by
      unfold solidFacets facetsFrom
      simp only [index_cons_zero, index_cons_succ, ok_bind, ea, eb, ec, pure_eq]
    rw [e, List.mem_filter]
    have hany : (s.tetras.any fun t => (facets t).contains (facetKey f)) = true := by
      obtain ⟨x, hx, hfx⟩ := hs
      rw [List.any_eq_true]
      refine ⟨x, hx, ?_⟩
      rw [List.contains_iff_mem, facets_eq]
      exact List.mem_map_of_mem hfx
    have hid : ∀ {v u}, s.ids[v]? = some u → idOf s v = u := fun h => by unfold idOf; rw [h]; rfl
    have hid2 : ∀ {v u}, v < s.ids.length → idOf s v = u → s.ids[v]? = some u := fun h h2 => by
      unfold idOf at h2; rw [List.getElem?_eq_getElem h] at h2 ⊢; simpa using h2
    constructor
    · rintro ⟨h, _⟩
      obtain ⟨x, hx, h⟩ := List.mem_flatMap.1 h
      obtain ⟨y, hy, h⟩ := List.mem_flatMap.1 h
      obtain ⟨z, hz, h⟩ := List.mem_map.1 h
      have hp := facetKey_eq_iff.1 h
      have := (hp.symm.map (idOf s))
      rw [List.map_cons, List.map_cons, List.map_cons, List.map_nil, hid ((mem_copies ea x).1 hx), hid ((mem_copies eb y).1 hy),
        hid ((mem_copies ec z).1 hz)] at this
      exact this
    · intro h
      refine ⟨?_, hany⟩
      obtain ⟨g, hg1, hg2⟩ := perm_map h
      match g, hg2 with
      | [x, y, z], hg2 =>
        simp only [List.map_cons, List.map_nil, List.cons.injEq, and_true] at hg2
        obtain ⟨e1, e2, e3⟩ := hg2
        refine List.mem_flatMap.2 ⟨x, (mem_copies ea x).2 (hid2 (hf x (hg1.subset (by simp))) e1), ?_⟩
        refine List.mem_flatMap.2 ⟨y, (mem_copies eb y).2 (hid2 (hf y (hg1.subset (by simp))) e2), ?_⟩
        exact List.mem_map.2 ⟨z, (mem_copies ec z).2 (hid2 (hf z (hg1.subset (by simp))) e3), facetKey_eq_iff.2 hg1⟩

theorem mem_faceFacets {s : Solid D} {fs : List (List (List Nat))} {n0 : Nat} {k : List Nat} {n : Nat} :
    (k, n) ∈ faceFacets s n0 fs ↔ ∃ j ts, n = n0 + j ∧ fs[j]? = some ts ∧ ∃ t ∈ ts, k ∈ solidFacets s t := by
  induction fs generalizing n0 with
  | nil => simp [faceFacets]
  | cons ts fs ih =>
    rw [faceFacets, List.mem_append, ih]
    constructor
    · rintro (h | ⟨j, us, e, hj, h⟩)
      · obtain ⟨k', hk', e⟩ := List.mem_map.1 h
        cases e
        obtain ⟨t, ht, hk⟩ := List.mem_flatMap.1 hk'
        exact ⟨0, ts, rfl, rfl, t, ht, hk⟩
      · exact ⟨j + 1, us, by omega, by simpa using hj, h⟩
    · rintro ⟨j, us, e, hj, t, ht, hk⟩
      cases j with
      | zero =>
        simp at hj; subst hj
        left
        exact List.mem_map.2 ⟨k, List.mem_flatMap.2 ⟨t, ht, hk⟩, by simp [e]⟩
      | succ j => exact Or.inr ⟨j, us, by omega, by simpa using hj, t, ht, hk⟩

end Verif.Lso
