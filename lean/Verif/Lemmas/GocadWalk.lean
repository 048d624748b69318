import Verif.Model.GocadMesh

/-!
# The walk of the PLine writer along the edges of a curve
-/

namespace Verif.GocadWalk

open Verif Verif.Gocad Verif.GocadMesh

/-- The vertex of a half-edge. -/
def vtx (edges : List Edge) (h : EV) : Nat :=
  match edges[h.1]? with
  | some e => if h.2 then e.2 else e.1
  | none => 0

/-- The other half of the same edge. -/
def opp (h : EV) : EV := (h.1, !h.2)

@[simp] theorem opp_fst (h : EV) : (opp h).1 = h.1 := rfl

theorem opp_ne (h : EV) : opp h ≠ h := by
  intro e
  have := congrArg Prod.snd e
  simp [opp] at this

theorem eq_or_opp {h g : EV} (e : h.1 = g.1) : h = g ∨ h = opp g := by
  obtain ⟨i, b⟩ := h
  obtain ⟨j, c⟩ := g
  simp only at e
  subst e
  cases b <;> cases c <;> simp [opp]

theorem evVertex_eq {edges : List Edge} {h : EV} (hh : h.1 < edges.length) : evVertex edges h = .ok (vtx edges h) := by
  unfold evVertex vtx
  rw [Res.index_of_lt hh, List.getElem?_eq_getElem hh]
  rfl

theorem mem_edgesAroundFrom {v k : Nat} {es : List Edge} {h : EV} :
    h ∈ edgesAroundFrom v k es ↔ k ≤ h.1 ∧ h.1 - k < es.length ∧ vtx es (h.1 - k, h.2) = v := by
  induction es generalizing k with
  | nil => simp [edgesAroundFrom]
  | cons e es ih =>
    rw [edgesAroundFrom, List.mem_append, List.mem_append, ih]
    obtain ⟨i, b⟩ := h
    simp only
    by_cases hk : i = k
    · subst hk
      simp only [Nat.sub_self, Nat.le_refl, List.length_cons, true_and]
      have : ¬ (i + 1 ≤ i) := by omega
      cases b
      · by_cases he : e.1 = v <;> by_cases he2 : e.2 = v <;> simp [he, he2, vtx, this]
      · by_cases he : e.1 = v <;> by_cases he2 : e.2 = v <;> simp [he, he2, vtx, this]
    · have h1 : (i, b) ∉ (if e.1 = v then [(k, false)] else []) := by split <;> simp [hk]
      have h2 : (i, b) ∉ (if e.2 = v then [(k, true)] else []) := by split <;> simp [hk]
      simp only [h1, h2, false_or, List.length_cons]
      by_cases hl : k + 1 ≤ i
      · have e1 : i - k = (i - (k + 1)) + 1 := by omega
        have e2 : vtx (e :: es) (i - k, b) = vtx es (i - (k + 1), b) := by
          rw [e1]; simp [vtx]
        rw [e2]
        constructor
        · rintro ⟨a, b, c⟩; exact ⟨by omega, by omega, c⟩
        · rintro ⟨a, b, c⟩; exact ⟨hl, by omega, c⟩
      · constructor
        · rintro ⟨a, _⟩; omega
        · rintro ⟨a, _⟩; omega

theorem mem_edgesAround {edges : List Edge} {v : Nat} {h : EV} :
    h ∈ edgesAround edges v ↔ h.1 < edges.length ∧ vtx edges h = v := by
  unfold edgesAround
  rw [mem_edgesAroundFrom]
  simp

theorem nodup_edgesAroundFrom (v k : Nat) (es : List Edge) : (edgesAroundFrom v k es).Nodup := by
  induction es generalizing k with
  | nil => simp [edgesAroundFrom]
  | cons e es ih =>
    rw [edgesAroundFrom, List.nodup_append]
    refine ⟨?_, ih _, ?_⟩
    · split <;> split <;> simp
    · intro a ha b hb
      rw [mem_edgesAroundFrom] at hb
      have : a.1 = k := by
        rcases List.mem_append.1 ha with h | h
        · split at h <;> simp at h; rw [h]
        · split at h <;> simp at h; rw [h]
      intro e
      subst e
      omega

theorem nodup_edgesAround (edges : List Edge) (v : Nat) : (edgesAround edges v).Nodup := nodup_edgesAroundFrom _ _ _

/-- Number of half-edges at the vertex of `h`. -/
def deg (edges : List Edge) (v : Nat) : Nat := (edgesAround edges v).length

/-- `h` and `g` are the two half-edges of a vertex with exactly two. -/
def Partner (edges : List Edge) (h g : EV) : Prop :=
  h ≠ g ∧ h.1 < edges.length ∧ g.1 < edges.length ∧ vtx edges h = vtx edges g ∧ deg edges (vtx edges h) = 2

theorem Partner.symm {edges : List Edge} {h g : EV} (p : Partner edges h g) : Partner edges g h :=
  ⟨fun e => p.1 e.symm, p.2.2.1, p.2.1, p.2.2.2.1.symm, by rw [← p.2.2.2.1]; exact p.2.2.2.2⟩

theorem two_elems {α : Type} {l : List α} {a b : α} (hl : l.length = 2) (ha : a ∈ l) (hb : b ∈ l) (hab : a ≠ b) :
    l = [a, b] ∨ l = [b, a] := by
  match l, hl with
  | [x, y], _ =>
    simp only [List.mem_cons, List.not_mem_nil, or_false] at ha hb
    rcases ha with rfl | rfl <;> rcases hb with rfl | rfl <;> simp_all

theorem Partner.unique {edges : List Edge} {h g g' : EV} (p : Partner edges h g) (p' : Partner edges h g') : g = g' := by
  have hm : h ∈ edgesAround edges (vtx edges h) := mem_edgesAround.2 ⟨p.2.1, rfl⟩
  have gm : g ∈ edgesAround edges (vtx edges h) := mem_edgesAround.2 ⟨p.2.2.1, p.2.2.2.1.symm⟩
  have gm' : g' ∈ edgesAround edges (vtx edges h) := mem_edgesAround.2 ⟨p'.2.2.1, p'.2.2.2.1.symm⟩
  have hl := p.2.2.2.2
  unfold deg at hl
  rcases two_elems hl hm gm p.1 with e | e <;> rw [e] at gm' <;> simp only [List.mem_cons, List.not_mem_nil, or_false] at gm'
  · rcases gm' with h' | h'
    · exact absurd h'.symm p'.1
    · exact h'.symm
  · rcases gm' with h' | h'
    · exact h'.symm
    · exact absurd h'.symm p'.1

theorem exists_partner {edges : List Edge} {h : EV} (hh : h.1 < edges.length) (hd : deg edges (vtx edges h) = 2) :
    ∃ g, Partner edges h g := by
  have hm : h ∈ edgesAround edges (vtx edges h) := mem_edgesAround.2 ⟨hh, rfl⟩
  have hn := nodup_edgesAround edges (vtx edges h)
  unfold deg at hd
  match hl : edgesAround edges (vtx edges h), hd with
  | [x, y], _ =>
    rw [hl] at hm hn
    have hx : x ∈ edgesAround edges (vtx edges h) := by rw [hl]; simp
    have hy : y ∈ edgesAround edges (vtx edges h) := by rw [hl]; simp
    rw [mem_edgesAround] at hx hy
    have hxy : x ≠ y := by simp at hn; exact hn
    have hd : deg edges (vtx edges h) = 2 := by unfold deg; rw [hl]; rfl
    simp only [List.mem_cons, List.not_mem_nil, or_false] at hm
    rcases hm with rfl | rfl
    · exact ⟨y, hxy, hh, hy.1, hy.2.symm, hd⟩
    · exact ⟨x, fun e => hxy e.symm, hh, hx.1, hx.2.symm, hd⟩

/-- The list of the half-edges around the vertex of `h` is `h` and its partner. -/
theorem around_eq {edges : List Edge} {h g : EV} (p : Partner edges h g) :
    edgesAround edges (vtx edges h) = [h, g] ∨ edgesAround edges (vtx edges h) = [g, h] :=
  two_elems p.2.2.2.2 (mem_edgesAround.2 ⟨p.2.1, rfl⟩) (mem_edgesAround.2 ⟨p.2.2.1, p.2.2.2.1.symm⟩) p.1

/-- Away from the half-edges of `X`, the two edges of a vertex with exactly two are both done or both not done. -/
def Bal (edges : List Edge) (done : List Nat) (X : List EV) : Prop :=
  ∀ h g, Partner edges h g → h ∉ X → g ∉ X → (h.1 ∈ done ↔ g.1 ∈ done)

/-- Number of edges not done. -/
def undone (edges : List Edge) (done : List Nat) : Nat :=
  ((List.range edges.length).filter fun i => !done.contains i).length

theorem filter_imp_length {l : List Nat} {p q : Nat → Bool} (h : ∀ x, q x = true → p x = true) {a : Nat} (ha : a ∈ l) (hp : p a = true)
    (hq : q a = false) : (l.filter q).length < (l.filter p).length := by
  induction l with
  | nil => simp at ha
  | cons x l ih =>
    have hle : ∀ l : List Nat, (l.filter q).length ≤ (l.filter p).length := by
      intro l
      induction l with
      | nil => simp
      | cons y l ih =>
        by_cases hy : q y = true
        · simp [hy, h y hy, ih]
        · by_cases hy' : p y = true <;> simp [hy, hy'] <;> omega
    rcases List.mem_cons.1 ha with rfl | ha
    · simp only [List.filter_cons, hq, hp, if_true, Bool.false_eq_true, if_false, List.length_cons]
      have := hle l
      omega
    · have := ih ha
      by_cases hx : q x = true
      · simp [hx, h x hx, this]
      · by_cases hx' : p x = true <;> simp [hx, hx'] <;> omega

theorem undone_cons {edges : List Edge} {done : List Nat} {i : Nat} (hi : i < edges.length) (hd : i ∉ done) :
    undone edges (i :: done) < undone edges done := by
  unfold undone
  refine filter_imp_length (a := i) ?_ (by simpa using hi) (by simpa using hd) (by simp)
  intro x hx
  simp only [List.contains_cons, Bool.not_or, Bool.and_eq_true] at hx
  exact hx.2

/-- Consecutive half-edges: each one starts at the vertex where the previous edge ends. -/
def Chain (edges : List Edge) : List EV → Prop
  | [] => True
  | [_] => True
  | h :: g :: hs => vtx edges (opp h) = vtx edges g ∧ Chain edges (g :: hs)

/-- What a walk from `ev` gives, the whole iline having started at `s`. -/
structure Walked (edges : List Edge) (s : EV) (done : List Nat) (ev : EV) (evs : List EV) (done' : List Nat) (hs : List EV) (last : EV) : Prop where
  done_eq : done' = (hs.map Prod.fst).reverse ++ done
  nodup : (hs.map Prod.fst).Nodup
  fresh : ∀ h ∈ hs, h.1 ∉ done ∧ h.1 < edges.length
  chain : Chain edges hs
  head : hs.head? = some ev
  last_eq : hs.getLast? = some last
  ending : (evs = hs ++ [opp last] ∧ deg edges (vtx edges (opp last)) ≠ 2 ∧ Bal edges done' [s]) ∨
    (evs = hs ∧ Partner edges (opp last) s ∧ Bal edges done' [])

theorem walk_spec {edges : List Edge} (s : EV) (fuel : Nat) (done : List Nat) (ev : EV) (hev : ev.1 < edges.length)
    (hnew : ev.1 ∉ done) (hfuel : undone edges done < fuel)
    (hinv : ev = s ∨ (s.1 ∈ done ∧ ∀ g, Partner edges ev g → g.1 ∈ done)) (hbal : Bal edges done [ev, s]) :
    ∃ evs done' hs last, walk edges fuel done ev = .ok (evs, done') ∧ Walked edges s done ev evs done' hs last := by
  induction fuel generalizing done ev with
  | zero => omega
  | succ fuel ih =>
    have hopp : (opp ev).1 < edges.length := hev
    rw [walk]
    have e1 : evVertex edges (ev.1, !ev.2) = .ok (vtx edges (opp ev)) := evVertex_eq hopp
    simp only [e1, Res.ok_bind]
    by_cases hd : (edgesAround edges (vtx edges (opp ev))).length = 2
    · rw [if_pos hd]
      obtain ⟨o, po⟩ := exists_partner hopp hd
      have hone : opp ev ≠ o := po.1
      have hfil : (edgesAround edges (vtx edges (opp ev))).filter (fun a => !isDone (ev.1 :: done) a.1) =
          if o.1 ∈ ev.1 :: done then [] else [o] := by
        have h1 : isDone (ev.1 :: done) ev.1 = true := by simp [isDone]
        by_cases ho : o.1 ∈ ev.1 :: done
        · have h2 : isDone (ev.1 :: done) o.1 = true := by simpa [isDone] using ho
          rw [if_pos ho]
          rcases around_eq po with e | e <;> rw [e] <;> simp [h1, h2]
        · have h2 : isDone (ev.1 :: done) o.1 = false := by simpa [isDone] using ho
          rw [if_neg ho]
          rcases around_eq po with e | e <;> rw [e] <;> simp [h1, h2]
      rw [hfil]
      by_cases ho : o.1 ∈ ev.1 :: done
      · rw [if_pos ho]
        simp only [List.getLast?_nil, Res.pure_eq]
        -- the loop is closed: o is the start
        have hos : o = s := by
          rcases List.mem_cons.1 ho with h | h
          · rcases eq_or_opp h with h | h
            · rcases hinv with h' | ⟨_, h'⟩
              · rw [h, h']
              · have := h' (opp ev) (by have q := po.symm; rw [h] at q; exact q)
                exact absurd this hnew
            · exact absurd h.symm hone
          · apply Classical.byContradiction
            intro hne
            have h1 : opp ev ∉ [ev, s] := by
              simp only [List.mem_cons, List.not_mem_nil, or_false, not_or]
              refine ⟨opp_ne ev, fun e => ?_⟩
              rcases hinv with h' | ⟨h', _⟩
              · rw [← h'] at e; exact opp_ne ev e
              · rw [← e] at h'; exact hnew h'
            have h2 : o ∉ [ev, s] := by
              simp only [List.mem_cons, List.not_mem_nil, or_false, not_or]
              exact ⟨fun e => hnew (by rw [← e]; exact h), hne⟩
            exact hnew ((hbal _ _ po h1 h2).2 h)
        refine ⟨_, _, [ev], ev, rfl, ⟨by simp, by simp, by simp [hnew, hev], trivial, rfl, rfl, Or.inr ⟨rfl, by rw [← hos]; exact po, ?_⟩⟩⟩
        have hs1 : s.1 ∈ ev.1 :: done := by rw [← hos]; exact ho
        -- both edges of every vertex with two are done or not
        have key : ∀ h g, Partner edges h g → h.1 ∈ ev.1 :: done → g.1 ∈ ev.1 :: done := by
          intro h g p hh
          by_cases h1 : h = ev
          · by_cases h2 : ev = s
            · have : g = opp ev := by
                have p' : Partner edges o (opp ev) := po.symm
                rw [hos, ← h2, ← h1] at p'
                rw [h1] at p p'
                exact p.unique p'
              rw [this]; simp
            · rcases hinv with h' | ⟨_, h'⟩
              · exact absurd h' h2
              · rw [h1] at p; exact List.mem_cons_of_mem _ (h' g p)
          · by_cases h3 : h = opp ev
            · rw [h3] at p
              rw [p.unique po]; exact ho
            · have hd' : h.1 ∈ done := by
                rcases List.mem_cons.1 hh with e | e
                · rcases eq_or_opp e with e | e
                  · exact absurd e h1
                  · exact absurd e h3
                · exact e
              by_cases h4 : h = s
              · rw [h4, ← hos] at p
                rw [p.unique po.symm]; simp
              · by_cases h5 : g = ev
                · rw [h5]; simp
                · by_cases h6 : g = s
                  · rw [h6]; exact hs1
                  · exact List.mem_cons_of_mem _ ((hbal h g p (by simp [h1, h4]) (by simp [h5, h6])).1 hd')
        exact fun h g p _ _ => ⟨key h g p, key g h p.symm⟩
      · rw [if_neg ho]
        simp only [List.getLast?_singleton]
        have hos : o.1 < edges.length := po.2.2.1
        obtain ⟨evs, done', hs, last, hw, w⟩ := ih (ev.1 :: done) o hos ho
          (by have := undone_cons hev hnew; omega)
          (Or.inr ⟨by rcases hinv with h | ⟨h, _⟩ <;> simp [h], fun g p => by rw [p.unique po.symm]; simp⟩)
          (by
            have key : ∀ h g, Partner edges h g → h ∉ [o, s] → g ∉ [o, s] → h.1 ∈ ev.1 :: done → g.1 ∈ ev.1 :: done := by
              intro h g p hh hg hm
              simp only [List.mem_cons, List.not_mem_nil, or_false, not_or] at hh hg
              by_cases h1 : h = ev
              · rcases hinv with h' | ⟨_, h'⟩
                · exact absurd (h1.trans h') hh.2
                · rw [h1] at p; exact List.mem_cons_of_mem _ (h' g p)
              · by_cases h2 : h = opp ev
                · rw [h2] at p; exact absurd (p.unique po) hg.1
                · have hd' : h.1 ∈ done := by
                    rcases List.mem_cons.1 hm with e | e
                    · rcases eq_or_opp e with e | e
                      · exact absurd e h1
                      · exact absurd e h2
                    · exact e
                  by_cases h5 : g = ev
                  · rw [h5]; simp
                  · exact List.mem_cons_of_mem _ ((hbal h g p (by simp [h1, hh.2]) (by simp [h5, hg.2])).1 hd')
            exact fun h g p hh hg => ⟨key h g p hh hg, key g h p.symm hg hh⟩)
        rw [hw]
        simp only [Res.ok_bind, Res.pure_eq]
        refine ⟨ev :: evs, done', ev :: hs, last, rfl, ?_⟩
        obtain ⟨h1, h2, h3, h4, h5, h6, h7⟩ := w
        refine ⟨by rw [h1]; simp, ?_, ?_, ?_, rfl, ?_, ?_⟩
        · rw [List.map_cons, List.nodup_cons]
          refine ⟨?_, h2⟩
          intro hm
          obtain ⟨x, hx, e⟩ := List.mem_map.1 hm
          exact (h3 x hx).1 (by rw [e]; simp)
        · intro x hx
          rcases List.mem_cons.1 hx with rfl | hx
          · exact ⟨hnew, hev⟩
          · exact ⟨fun e => (h3 x hx).1 (List.mem_cons_of_mem _ e), (h3 x hx).2⟩
        · cases hs with
          | nil => trivial
          | cons x xs =>
            simp only [List.head?_cons, Option.some.injEq] at h5
            subst h5
            exact ⟨po.2.2.2.1, h4⟩
        · cases hs with
          | nil => simp at h5
          | cons x xs => rw [List.getLast?_cons_cons]; exact h6
        · rcases h7 with ⟨e, hdeg, hb⟩ | ⟨e, hp, hb⟩
          · exact Or.inl ⟨by rw [e]; rfl, hdeg, hb⟩
          · exact Or.inr ⟨by rw [e], hp, hb⟩
    · rw [if_neg hd]
      refine ⟨[ev, opp ev], ev.1 :: done, [ev], ev, rfl, ⟨by simp, by simp, by simp [hnew, hev], trivial, rfl, rfl, Or.inl ⟨rfl, hd, ?_⟩⟩⟩
      have key : ∀ h g, Partner edges h g → h ∉ [s] → g ∉ [s] → h.1 ∈ ev.1 :: done → g.1 ∈ ev.1 :: done := by
        intro h g p hh hg hm
        simp only [List.mem_cons, List.not_mem_nil, or_false] at hh hg
        by_cases h1 : h = ev
        · rcases hinv with h' | ⟨_, h'⟩
          · exact absurd (h1.trans h') hh
          · rw [h1] at p; exact List.mem_cons_of_mem _ (h' g p)
        · by_cases h2 : h = opp ev
          · rw [h2] at p; exact absurd p.2.2.2.2 hd
          · have hd' : h.1 ∈ done := by
              rcases List.mem_cons.1 hm with e | e
              · rcases eq_or_opp e with e | e
                · exact absurd e h1
                · exact absurd e h2
              · exact e
            by_cases h5 : g = ev
            · rw [h5]; simp
            · exact List.mem_cons_of_mem _ ((hbal h g p (by simp [h1, hh]) (by simp [h5, hg])).1 hd')
      exact fun h g p hh hg => ⟨key h g p hh hg, key g h p.symm hg hh⟩

end Verif.GocadWalk
