import Verif.Props.LsoFile

/-!
# Which shared vertices of LightSolid files are right, exactly (C111)

A shared vertex is the vertex it refers to if and only if all the lines up to this vertex are new points.
-/

set_option linter.unusedSectionVars false

namespace Verif.Props.LsoShared

open Verif Verif.Gocad Verif.GocadMesh Verif.Lso Verif.Props.LsoFile Res

variable {D : Type} [Num D]

/-- A new point. -/
def isNew : Rec D → Bool
  | .new _ => true
  | .shared _ => false

/-- Number of new points among the first `k` lines. -/
def news (rs : List (Rec D)) (k : Nat) : Nat := ((rs.take k).filter isNew).length

theorem news_append {a b : List (Rec D)} {k : Nat} (h : k ≤ a.length) : news (a ++ b) k = news a k := by
  unfold news
  rw [List.take_append_of_le_length h]

theorem news_succ {rs : List (Rec D)} {k : Nat} {r : Rec D} (h : rs[k]? = some r) : news rs (k + 1) = news rs k + (if isNew r then 1 else 0) := by
  unfold news
  rw [List.take_add_one, h, List.filter_append, List.length_append]
  cases hr : isNew r <;> simp [hr]

theorem news_le (rs : List (Rec D)) (k : Nat) : news rs k ≤ k := by
  unfold news
  have := List.length_filter_le isNew (rs.take k)
  have := List.length_take_le k rs
  omega

theorem news_mono {rs : List (Rec D)} {a b : Nat} (h : a ≤ b) : news rs a ≤ news rs b := by
  unfold news
  have e : rs.take a = (rs.take b).take a := by rw [List.take_take, Nat.min_eq_left h]
  rw [e]
  exact ((List.take_sublist a (rs.take b)).filter isNew).length_le

/-- The count is full exactly when all the lines are new points. -/
theorem news_full {rs : List (Rec D)} : ∀ {k : Nat}, k ≤ rs.length → (news rs k = k ↔ ∀ j < k, ∃ p, rs[j]? = some (.new p)) := by
  intro k
  induction k with
  | zero => intro _; simp [news]
  | succ k ih =>
    intro hk
    have hr := List.getElem?_eq_getElem (l := rs) (show k < rs.length by omega)
    generalize rs[k] = r at hr
    rw [news_succ hr]
    have hle := news_le rs k
    constructor
    · intro e j hj
      cases r with
      | shared n =>
        simp only [isNew] at e
        have : news rs k ≤ k := hle
        simp at e
        omega
      | new p =>
        have hk' : news rs k = k := by simp [isNew] at e; exact e
        by_cases hjk : j = k
        · exact ⟨p, hjk ▸ hr⟩
        · exact (ih (by omega)).1 hk' j (by omega)
    · intro h
      obtain ⟨p, hp⟩ := h k (by omega)
      rw [hr] at hp
      obtain rfl := Option.some.inj hp
      have := (ih (by omega)).2 fun j hj => h j (by omega)
      simp [isNew, this]

/-- What the solid has after some lines: a shared vertex has the point of the line it refers to, and the rank of this line as unique vertex. -/
structure Inv (rs : List (Rec D)) (s : Solid D) : Prop where
  points : s.points.length = rs.length
  ids : s.ids.length = rs.length
  nb : s.nbUnique = news rs rs.length
  new : ∀ (k : Nat) (p : Pt D), rs[k]? = some (.new p) → s.points[k]? = some p.round ∧ s.ids[k]? = some (news rs k)
  shared : ∀ (k n : Nat), rs[k]? = some (.shared n) → s.points[k]? = s.points[n]? ∧ s.ids[k]? = some n

/-- The shared vertices from line `k` on refer to lines below the number of points so far. -/
def Fits (rs : List (Rec D)) (from_ : Nat) : Prop := ∀ k n, from_ ≤ k → rs[k]? = some (.shared n) → n < news rs k

theorem getElem?_snoc {α : Type} {l : List α} {a b : α} {k : Nat} (h : (l ++ [a])[k]? = some b) : l[k]? = some b ∨ k = l.length ∧ a = b := by
  rw [List.getElem?_append] at h
  split at h
  · exact Or.inl h
  · rename_i hk
    have hz : k - l.length = 0 := by
      by_contra hne
      obtain ⟨i, hi⟩ := Nat.exists_eq_succ_of_ne_zero hne
      rw [hi] at h
      simp at h
    rw [hz] at h
    exact Or.inr ⟨by omega, by simpa using h⟩

theorem inv_new {done : List (Rec D)} {s : Solid D} (h : Inv done s) (p : Pt D) :
    Inv (done ++ [.new p]) { s with points := s.points ++ [p.round], ids := s.ids ++ [s.nbUnique], nbUnique := s.nbUnique + 1 } where
  points := by simp [h.points]
  ids := by simp [h.ids]
  nb := by
    have e : (done ++ [Rec.new p])[done.length]? = some (.new p) := by simp
    rw [List.length_append, List.length_singleton, news_succ e, news_append (Nat.le_refl _), h.nb]
    simp [isNew]
  new := by
    intro k q hk
    rcases getElem?_snoc hk with hk | ⟨rfl, e⟩
    · have hlt := (List.getElem?_eq_some_iff.1 hk).1
      obtain ⟨h1, h2⟩ := h.new k q hk
      rw [news_append (by omega)]
      refine ⟨?_, ?_⟩
      · show (s.points ++ _)[k]? = _
        rw [List.getElem?_append_left (by rw [h.points]; exact hlt), h1]
      · show (s.ids ++ _)[k]? = _
        rw [List.getElem?_append_left (by rw [h.ids]; exact hlt), h2]
    · cases e
      rw [news_append (Nat.le_refl _)]
      refine ⟨?_, ?_⟩
      · show (s.points ++ _)[done.length]? = _
        rw [← h.points]; simp
      · show (s.ids ++ _)[done.length]? = _
        rw [h.nb, ← h.ids]; simp
  shared := by
    intro k n hk
    rcases getElem?_snoc hk with hk | ⟨_, e⟩
    · have hlt := (List.getElem?_eq_some_iff.1 hk).1
      obtain ⟨h1, h2⟩ := h.shared k n hk
      have hn : n < s.points.length := by
        rw [List.getElem?_eq_getElem (by rw [h.points]; exact hlt)] at h1
        exact (List.getElem?_eq_some_iff.1 h1.symm).1
      refine ⟨?_, ?_⟩
      · show (s.points ++ _)[k]? = (s.points ++ _)[n]?
        rw [List.getElem?_append_left (by rw [h.points]; exact hlt), List.getElem?_append_left hn, h1]
      · show (s.ids ++ _)[k]? = _
        rw [List.getElem?_append_left (by rw [h.ids]; exact hlt), h2]
    · cases e

theorem inv_shared {done : List (Rec D)} {s : Solid D} (h : Inv done s) {n : Nat} {q : Pt D} (hq : s.points[n]? = some q) :
    Inv (done ++ [.shared n]) { s with points := s.points ++ [q], ids := s.ids ++ [n] } where
  points := by simp [h.points]
  ids := by simp [h.ids]
  nb := by
    have e : (done ++ [(Rec.shared n : Rec D)])[done.length]? = some (.shared n) := by simp
    rw [List.length_append, List.length_singleton, news_succ e, news_append (Nat.le_refl _), h.nb]
    simp [isNew]
  new := by
    intro k p hk
    rcases getElem?_snoc hk with hk | ⟨_, e⟩
    · have hlt := (List.getElem?_eq_some_iff.1 hk).1
      obtain ⟨h1, h2⟩ := h.new k p hk
      rw [news_append (by omega)]
      refine ⟨?_, ?_⟩
      · show (s.points ++ _)[k]? = _
        rw [List.getElem?_append_left (by rw [h.points]; exact hlt), h1]
      · show (s.ids ++ _)[k]? = _
        rw [List.getElem?_append_left (by rw [h.ids]; exact hlt), h2]
    · cases e
  shared := by
    intro k n' hk
    rcases getElem?_snoc hk with hk | ⟨rfl, e⟩
    · have hlt := (List.getElem?_eq_some_iff.1 hk).1
      obtain ⟨h1, h2⟩ := h.shared k n' hk
      have hn : n' < s.points.length := by
        rw [List.getElem?_eq_getElem (by rw [h.points]; exact hlt)] at h1
        exact (List.getElem?_eq_some_iff.1 h1.symm).1
      refine ⟨?_, ?_⟩
      · show (s.points ++ _)[k]? = (s.points ++ _)[n']?
        rw [List.getElem?_append_left (by rw [h.points]; exact hlt), List.getElem?_append_left hn, h1]
      · show (s.ids ++ _)[k]? = _
        rw [List.getElem?_append_left (by rw [h.ids]; exact hlt), h2]
    · cases e
      have hn := (List.getElem?_eq_some_iff.1 hq).1
      refine ⟨?_, ?_⟩
      · show (s.points ++ _)[done.length]? = (s.points ++ _)[n]?
        rw [List.getElem?_append_left hn, hq, ← h.points]; simp
      · show (s.ids ++ _)[done.length]? = _
        rw [← h.ids]; simp

/-- The vertices are read up to the first shared one that refers to a line at or beyond the number of points so far. -/
theorem loop [LawfulNum D] {rs : List (Rec D)} (hr : Refers rs) (hw : rs.length < NO_ID) {l : Str} (hl : contains cs!"VRTX" l = false) (rest : File) :
    ∀ (todo done : List (Rec D)) (s : Solid D) (k : Nat), rs = done ++ todo → Inv done s →
    (Fits rs done.length → ∃ s', readVerticesLoop true [] s (recLines k todo ++ l :: rest) = .ok (s', l, rest) ∧ Inv rs s') ∧
    (¬Fits rs done.length → readVerticesLoop true [] s (recLines k todo ++ l :: rest) = .ub) := by
  intro todo
  have hW : NO_ID < W := by decide
  induction todo with
  | nil =>
    intro done s k e hi
    rw [List.append_nil] at e
    subst e
    refine ⟨fun _ => ⟨s, ?_, hi⟩, fun hf => absurd ?_ hf⟩
    · rw [recLines, List.nil_append, readVerticesLoop, if_neg (by rw [hl]; decide)]
    · intro k n h1 h2
      have := (List.getElem?_eq_some_iff.1 h2).1
      omega
  | cons r todo ih =>
    intro done s k e hi
    have hat : rs[done.length]? = some r := by rw [e]; simp
    have hlt := (List.getElem?_eq_some_iff.1 hat).1
    have e' : rs = (done ++ [r]) ++ todo := by rw [e]; simp
    cases r with
    | new p =>
      have hstep : Fits rs done.length ↔ Fits rs (done ++ [Rec.new p]).length := by
        rw [List.length_append, List.length_singleton]
        constructor
        · intro hf k n h1 h2; exact hf k n (by omega) h2
        · intro hf k n h1 h2
          refine hf k n ?_ h2
          by_contra hc
          have : k = done.length := by omega
          rw [this, hat] at h2
          cases h2
      have hgo : readVerticesLoop true [] s (recLines k (.new p :: todo) ++ l :: rest) = readVerticesLoop true []
          { s with points := s.points ++ [p.round], ids := s.ids ++ [s.nbUnique], nbUnique := s.nbUnique + 1 } (recLines (k + 1) todo ++ l :: rest) := by
        rw [recLines, List.cons_append, readVerticesLoop, if_pos (contains_prefix _ _), readVertex_vrtx, ok_bind]
      rw [hgo, hstep]
      exact ih _ _ _ e' (inv_new hi p)
    | shared n =>
      obtain ⟨hn, p, hp⟩ := hr done.length n hat
      have hq : ∃ q, s.points[n]? = some q := ⟨_, List.getElem?_eq_getElem (by rw [hi.points]; exact hn)⟩
      obtain ⟨q, hq⟩ := hq
      have hc : contains cs!"VRTX" (cs!"SHAREDVRTX" ++ spaced [showNat k, showNat (n + 1)]) = true := by
        have : cs!"SHAREDVRTX" ++ spaced [showNat k, showNat (n + 1)] = cs!"SHARED" ++ (cs!"VRTX" ++ spaced [showNat k, showNat (n + 1)]) := rfl
        rw [this]
        exact contains_append _ _ _ (contains_prefix _ _)
      have hnews : news rs done.length = s.nbUnique := by rw [hi.nb, e, news_append (Nat.le_refl _)]
      by_cases hlt' : n < s.nbUnique
      · have hstep : Fits rs done.length ↔ Fits rs (done ++ [(Rec.shared n : Rec D)]).length := by
          rw [List.length_append, List.length_singleton]
          constructor
          · intro hf k n h1 h2; exact hf k n (by omega) h2
          · intro hf k n' h1 h2
            by_cases hk : k = done.length
            · rw [hk, hat] at h2
              cases h2
              rw [hk, hnews]
              exact hlt'
            · exact hf k n' (by omega) h2
        have hgo : readVerticesLoop true [] s (recLines k (.shared n :: todo) ++ l :: rest) = readVerticesLoop true []
            { s with points := s.points ++ [q], ids := s.ids ++ [n] } (recLines (k + 1) todo ++ l :: rest) := by
          rw [recLines, List.cons_append, readVerticesLoop, if_pos hc, readVertex_shared s k (n + 1) (by omega) (by omega) (by omega) hq, ok_bind]
          rfl
        rw [hgo, hstep]
        exact ih _ _ _ e' (inv_shared hi hq)
      · refine ⟨fun hf => ?_, fun _ => ?_⟩
        · have := hf done.length n (Nat.le_refl _) hat
          rw [hnews] at this
          exact absurd this hlt'
        · rw [recLines, List.cons_append, readVerticesLoop, if_pos hc, beyond_uniques_ub s k n (by omega) (by omega) hq]
          rfl

/-- All the lines up to those that shared vertices refer to are new points. -/
def Plain (rs : List (Rec D)) : Prop := ∀ (k n : Nat), rs[k]? = some (.shared n) → ∀ j : Nat, j ≤ n → ∃ p, rs[j]? = some (.new p)

theorem inv_empty : Inv ([] : List (Rec D)) {} := ⟨rfl, rfl, rfl, by simp, by simp⟩

theorem readVertices_loop {rs : List (Rec D)} (hne : rs ≠ []) (hr : Refers rs) (rest : File) :
    readVertices true [] {} (recLines 1 rs ++ rest) = readVerticesLoop (D := D) true [] {} (recLines 1 rs ++ rest) := by
  obtain ⟨r, rs', rfl⟩ := List.exists_cons_of_ne_nil hne
  cases r with
  | shared n => exact absurd (hr 0 n rfl).1 (by omega)
  | new p =>
    unfold readVertices
    have eg : gotoKeywords [cs!"VRTX", cs!"PVRTX"] (recLines 1 (.new p :: rs') ++ rest) =
        .ok (cs!"VRTX" ++ spaced (showNat 1 :: p.toks), recLines 2 rs' ++ rest) := by
      rw [recLines, List.cons_append, gotoKeywords, if_pos]
      rfl
    have er : readVerticesLoop (D := D) true [] {} (recLines 1 (.new p :: rs') ++ rest) =
        (readVertex true [] {} (cs!"VRTX" ++ spaced (showNat 1 :: p.toks)) >>= fun s => readVerticesLoop true [] s (recLines 2 rs' ++ rest)) := by
      rw [recLines, List.cons_append, readVerticesLoop, if_pos (contains_prefix _ _)]
    rw [eg, ok_bind, er]

/-- **C111, exactly.**  Vertices that refer to new points of lines before them are read as these if and only if all the lines up to each of these points are
new points. -/
theorem shared_right_iff [LawfulNum D] {rs : List (Rec D)} (hne : rs ≠ []) (hr : Refers rs) (hw : rs.length < NO_ID) {l : Str}
    (hl : contains cs!"VRTX" l = false) (rest : File) :
    (∃ s, readVertices true [] {} (recLines 1 rs ++ l :: rest) = .ok (s, l, rest) ∧ Has rs s) ↔ Plain rs := by
  rw [readVertices_loop hne hr]
  obtain ⟨h1, h2⟩ := loop hr hw hl rest rs [] {} 1 rfl inv_empty
  constructor
  · rintro ⟨s, e, hs⟩ k n hk
    obtain ⟨hn, p, hp⟩ := hr k n hk
    have hfit : Fits rs ([] : List (Rec D)).length := by
      by_contra hc
      rw [h2 hc] at e
      cases e
    obtain ⟨s', e', hi⟩ := h1 hfit
    rw [e] at e'
    obtain rfl : s = s' := congrArg Prod.fst (Res.ok.inj e')
    have hid := (hs.ids k n n n p p ⟨hp, Or.inr hk⟩ ⟨hp, Or.inl rfl⟩).2 rfl
    rw [(hi.shared k n hk).2, (hi.new n p hp).2, Option.some.injEq] at hid
    have hnl := (List.getElem?_eq_some_iff.1 hp).1
    have hall := (news_full (rs := rs) (k := n) (by omega)).1 hid.symm
    intro j hj
    by_cases hjn : j = n
    · exact ⟨p, hjn ▸ hp⟩
    · exact hall j (by omega)
  · intro hpl
    have hfull : ∀ (k n : Nat), rs[k]? = some (.shared n) → news rs n = n := by
      intro k n hk
      obtain ⟨hn, p, hp⟩ := hr k n hk
      have hnl := (List.getElem?_eq_some_iff.1 hp).1
      exact (news_full (by omega)).2 fun j hj => hpl k n hk j (by omega)
    have hfit : Fits rs ([] : List (Rec D)).length := by
      intro k n _ hk
      obtain ⟨hn, p, hp⟩ := hr k n hk
      have e1 := news_succ hp
      have e2 := hfull k n hk
      have e3 := news_mono (rs := rs) (a := n + 1) (b := k) (by omega)
      simp [isNew] at e1
      omega
    obtain ⟨s, e, hi⟩ := h1 hfit
    refine ⟨s, e, hi.points, ?_, ?_⟩
    · rintro k n p ⟨hp, rfl | hk⟩
      · exact (hi.new k p hp).1
      · rw [(hi.shared k n hk).1]
        exact (hi.new n p hp).1
    · have hid : ∀ k n p, Is rs k n p → s.ids[k]? = some (news rs n) := by
        rintro k n p ⟨hp, rfl | hk⟩
        · exact (hi.new k p hp).2
        · rw [(hi.shared k n hk).2, hfull k n hk]
      have hinj : ∀ n n' p, rs[n]? = some (.new p) → n < n' → news rs n < news rs n' := by
        intro n n' p hp hlt
        have e1 := news_succ hp
        have e3 := news_mono (rs := rs) (a := n + 1) (b := n') (by omega)
        simp [isNew] at e1
        omega
      intro k n k' n' p p' hk hk'
      rw [hid k n p hk, hid k' n' p' hk', Option.some.injEq]
      constructor
      · intro e
        rcases Nat.lt_trichotomy n n' with h | h | h
        · have := hinj n n' p hk.1 h
          omega
        · exact h
        · have := hinj n' n p' hk'.1 h
          omega
      · rintro rfl
        rfl

/-- **Which of these files have undefined behaviour**: exactly those in which a shared vertex refers to a line at or beyond the number of new points so
far. -/
theorem shared_ub_iff [LawfulNum D] {rs : List (Rec D)} (hne : rs ≠ []) (hr : Refers rs) (hw : rs.length < NO_ID) {l : Str}
    (hl : contains cs!"VRTX" l = false) (rest : File) :
    readVertices (D := D) true [] {} (recLines 1 rs ++ l :: rest) = .ub ↔ ∃ k n, rs[k]? = some (.shared n) ∧ ((rs.take k).filter isNew).length ≤ n := by
  rw [readVertices_loop hne hr]
  obtain ⟨h1, h2⟩ := loop hr hw hl rest rs [] {} 1 rfl inv_empty
  constructor
  · intro e
    by_contra hc
    obtain ⟨s, e', _⟩ := h1 fun k n _ hk => by
      by_contra hlt
      exact hc ⟨k, n, hk, Nat.le_of_not_lt hlt⟩
    rw [e] at e'
    cases e'
  · rintro ⟨k, n, hk, hle⟩
    refine h2 fun hf => ?_
    have := hf k n (Nat.zero_le _) hk
    unfold news at this
    omega

/-- The condition holds with a shared vertex between new points, and not for the vertices of `mixed`. -/
example : Plain (D := Int) [.new ⟨0, 0, 0⟩, .shared 0, .new ⟨1, 0, 0⟩] ∧ ¬Plain mixed := by
  constructor
  · intro k n hk j hj
    match k with
    | 0 => cases hk
    | 1 =>
      cases hk
      obtain rfl : j = 0 := by omega
      exact ⟨_, rfl⟩
    | 2 => cases hk
    | k + 3 => cases hk
  · intro h
    obtain ⟨p, hp⟩ := h 3 2 rfl 1 (by decide)
    cases hp

end Verif.Props.LsoShared
