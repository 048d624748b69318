import Verif.Model.MlCorners
import Verif.Props.MlCases

/-!
# Corners and line starts announced in structural model files
-/

set_option linter.unusedSectionVars false

namespace Verif.Props.MlCorners

open Verif Verif.Gocad Verif.GocadMesh Verif.Ml Verif.Props.MlRoundTrip Res

variable {D : Type} [Num D]

/-! ## The face of a vertex -/

theorem tfaceIdFrom_spec : ∀ (os : List Nat) (i v : Nat), (∀ o ∈ os, o ≤ v) ∧ tfaceIdFrom i os v = i + os.length ∨
    ∃ a o b, os = a ++ o :: b ∧ (∀ x ∈ a, x ≤ v) ∧ v < o ∧ tfaceIdFrom i os v = i + a.length
  | [], i, v => Or.inl ⟨by simp, rfl⟩
  | o :: os, i, v => by
    rw [tfaceIdFrom]
    split
    · rename_i h
      exact Or.inr ⟨[], o, os, rfl, by simp, h, rfl⟩
    · rename_i h
      rcases tfaceIdFrom_spec os (i + 1) v with ⟨h1, h2⟩ | ⟨a, o', b, rfl, h1, h2, h3⟩
      · refine Or.inl ⟨?_, by rw [h2, List.length_cons]; omega⟩
        intro x hx
        rcases List.mem_cons.1 hx with rfl | hx
        · omega
        · exact h1 x hx
      · refine Or.inr ⟨o :: a, o', b, rfl, ?_, h2, by rw [h3, List.length_cons]; omega⟩
        intro x hx
        rcases List.mem_cons.1 hx with rfl | hx
        · omega
        · exact h1 x hx

/-- **The face of a vertex is the one whose vertices it is among**: for first vertices of faces in any order of size, the face found begins at or before
the vertex and the next one begins after it. -/
theorem face_found {offsets : List Nat} {v : Nat} (h0 : offsets[0]? = some 0) {n : Nat} (hn : offsets.getLast? = some n) (hv : v < n) :
    ∃ a b, offsets[tfaceId offsets v]? = some a ∧ offsets[tfaceId offsets v + 1]? = some b ∧ a ≤ v ∧ v < b := by
  cases offsets with
  | nil => cases h0
  | cons o os =>
    have ho : o = 0 := by simpa using h0
    subst ho
    unfold tfaceId
    rw [List.tail_cons]
    rcases tfaceIdFrom_spec os 0 v with ⟨h1, _⟩ | ⟨a, o, b, rfl, h1, h2, h3⟩
    · exfalso
      have hm : n ∈ (0 :: os) := List.mem_of_getLast? hn
      rcases List.mem_cons.1 hm with rfl | hm
      · omega
      · have := h1 n hm; omega
    · rw [h3, Nat.zero_add]
      cases ha : a.reverse with
      | nil =>
        have : a = [] := by simpa using ha
        subst this
        exact ⟨0, o, rfl, rfl, by omega, h2⟩
      | cons x r =>
        have : a = r.reverse ++ [x] := by simpa using congrArg List.reverse ha
        subst this
        refine ⟨x, o, ?_, ?_, h1 x (by simp), h2⟩
        · simp [List.getElem?_append]
        · simp [List.getElem?_append]

/-! ## Save and load -/

/-- The corners of surfaces, as records: point, number of the surface, vertex. -/
def savedStones (ranks : List Nat) (ss : List (Surface D)) : List (Nat × Surface D × (Nat × Nat)) :=
  (ranks.zip ss).flatMap fun x => x.2.starts.map fun e => (x.1, x.2, e)

theorem sums_length : ∀ (l : List Nat) (a : Nat), (sums a l).length = l.length
  | [], _ => rfl
  | x :: xs, a => by rw [sums, List.length_cons, List.length_cons, sums_length xs]

theorem tfaceId_sums : ∀ (pre : List Nat) (n i : Nat) (post : List Nat) (a w : Nat), w < n →
    tfaceIdFrom i (sums a (pre ++ n :: post)) (a + pre.sum + w) = i + pre.length
  | [], n, i, post, a, w, hw => by
    rw [List.nil_append, sums, tfaceIdFrom, if_pos (by simp; omega)]
    rfl
  | x :: pre, n, i, post, a, w, hw => by
    rw [List.cons_append, sums, tfaceIdFrom, if_neg (by simp; omega)]
    have := tfaceId_sums pre n (i + 1) post (a + x) w hw
    rw [List.sum_cons, ← Nat.add_assoc a x, this, List.length_cons]
    omega

theorem sums_at : ∀ (pre : List Nat) (post : List Nat) (a : Nat), (a :: sums a (pre ++ post))[pre.length]? = some (a + pre.sum)
  | [], post, a => by simp
  | x :: pre, post, a => by
    rw [List.cons_append, sums, List.length_cons, List.getElem?_cons_succ, sums_at pre post (a + x), List.sum_cons]
    congr 1
    omega

theorem located_saved {pre post : List (Surface D)} {s : Surface D} {rpre rpost : List Nat} {r : Nat} (hr : rpre.length = pre.length)
    (hW : nbPoints (pre ++ s :: post) < W) {w : Nat} (hw : w < s.points.length) :
    located (0 :: sums 0 ((pre ++ s :: post).map fun s => s.points.length)) (rpre ++ r :: rpost) (nbPoints pre + w) = .ok (r, w, nbPoints pre) := by
  have e1 : tfaceId (0 :: sums 0 ((pre ++ s :: post).map fun s => s.points.length)) (nbPoints pre + w) = pre.length := by
    unfold tfaceId
    have := tfaceId_sums (pre.map fun s => s.points.length) s.points.length 0 (post.map fun s => s.points.length) 0 w hw
    rw [Nat.zero_add, List.length_map, Nat.zero_add] at this
    rw [List.tail_cons, List.map_append, List.map_cons]
    exact this
  have e2 : (0 :: sums 0 ((pre ++ s :: post).map fun s => s.points.length))[pre.length]? = some (nbPoints pre) := by
    have := sums_at (pre.map fun s => s.points.length) ((s :: post).map fun s => s.points.length) 0
    rw [← List.map_append, List.length_map, Nat.zero_add] at this
    exact this
  have e3 : (rpre ++ r :: rpost)[pre.length]? = some r := by
    rw [← hr, List.getElem?_append_right (Nat.le_refl _), Nat.sub_self]
    rfl
  have hn : nbPoints (pre ++ s :: post) = nbPoints pre + (s.points.length + nbPoints post) := by simp [nbPoints]
  unfold located
  simp only [e1]
  rw [index_eq_ok.2 e3, ok_bind, index_eq_ok.2 e2, ok_bind, sub32_of_le (by omega) (by omega)]
  rw [Nat.add_sub_cancel_left]
  rfl

theorem mapM'_append {A B : Type} (f : A → Res B) {a b : List A} {x y : List B} (ha : Res.mapM' f a = .ok x) (hb : Res.mapM' f b = .ok y) :
    Res.mapM' f (a ++ b) = .ok (x ++ y) := by
  induction a generalizing x with
  | nil => rw [← Res.ok.inj ha]; exact hb
  | cons u a ih =>
    rw [mapM'_cons] at ha
    obtain ⟨v, h1, ha⟩ := bind_eq_ok.1 ha
    obtain ⟨vs, h2, ha⟩ := bind_eq_ok.1 ha
    rw [← Res.ok.inj ha, List.cons_append, mapM'_cons, h1, ok_bind, ih h2]
    rfl

theorem mapM'_map {A B C : Type} {f : B → Res C} {g : A → B} {k : A → C} {l : List A} (h : ∀ a ∈ l, f (g a) = .ok (k a)) :
    Res.mapM' f (l.map g) = .ok (l.map k) := by
  induction l with
  | nil => rfl
  | cons a l ih =>
    rw [List.map_cons, mapM'_cons, h a (by simp), ok_bind, ih fun x hx => h x (by simp [hx])]
    rfl

theorem point_at {pre post : List (Surface D)} {s : Surface D} {w : Nat} {p : Pt D} (hp : s.points[w]? = some p) :
    ((pre ++ s :: post).flatMap fun s => s.points.map Pt.round)[nbPoints pre + w]? = some p.round := by
  have hw : w < s.points.length := (List.getElem?_eq_some_iff.1 hp).1
  have hl : (pre.flatMap fun s => s.points.map Pt.round).length = nbPoints pre := by
    induction pre with
    | nil => rfl
    | cons t pre ih => rw [List.flatMap_cons, List.length_append, ih, List.length_map]; simp [nbPoints]
  rw [List.flatMap_append, List.getElem?_append_right (by omega), hl, Nat.add_sub_cancel_left, List.flatMap_cons,
    List.getElem?_append_left (by simpa using hw), List.getElem?_map, hp]
  rfl

theorem stones_dataOf (name : Str) {ss : List (Surface D)} (hg : ∀ s ∈ ss, GoodSurface s)
    (hW : 1 + nbPoints ss ≤ W) (ranks : List Nat) (hr : ranks.length = ss.length) :
    ∃ records : List (Pt D × Nat × Nat), stones (dataOf name ss) ranks = .ok records ∧
      records.map some = (savedStones ranks ss).map (fun x => (x.2.1.points[x.2.2.1]?).map fun p => (p.round, x.1, x.2.2.1)) ∧
      startsAt (dataOf name ss) ranks = .ok ((savedStones ranks ss).map fun x => (x.1, x.2.2)) := by
  have key : ∀ (done todo : List (Surface D)) (rdone rtodo : List Nat), ss = done ++ todo → ranks = rdone ++ rtodo → rdone.length = done.length →
      rtodo.length = todo.length → ∃ records : List (Pt D × Nat × Nat),
      Res.mapM' (stoneOf (dataOf name ss) ranks) ((lineStarts (nbPoints done) todo).map Prod.fst) = .ok records ∧
      records.map some = (savedStones rtodo todo).map (fun x => (x.2.1.points[x.2.2.1]?).map fun p => (p.round, x.1, x.2.2.1)) ∧
      Res.mapM' (startAt (dataOf name ss) ranks) (lineStarts (nbPoints done) todo) = .ok ((savedStones rtodo todo).map fun x => (x.1, x.2.2)) := by
    intro done todo
    induction todo generalizing done with
    | nil =>
      intro rdone rtodo _ _ _ h4
      have : rtodo = [] := by simpa using h4
      subst this
      exact ⟨[], rfl, rfl, rfl⟩
    | cons s todo ih =>
      intro rdone rtodo h1 h2 h3 h4
      cases rtodo with
      | nil => simp at h4
      | cons r rtodo =>
        have hs : GoodSurface s := hg s (by rw [h1]; simp)
        have hnb : nbPoints done + s.points.length = nbPoints (done ++ [s]) := by simp [nbPoints]
        obtain ⟨recs, g1, g2, g3⟩ := ih (done ++ [s]) (rdone ++ [r]) rtodo (by rw [h1]; simp) (by rw [h2]; simp) (by simp [h3]) (by simpa using h4)
        have hWs : nbPoints (done ++ s :: todo) < W := by rw [← h1]; omega
        have hloc : ∀ w, w < s.points.length → located (dataOf name ss).tfaceVertices ranks (w + nbPoints done) = .ok (r, w, nbPoints done) := by
          intro w hw
          rw [h2, Nat.add_comm]
          show located (0 :: sums 0 (ss.map fun s => s.points.length)) _ _ = _
          rw [h1]
          exact located_saved h3 hWs hw
        have hpt : ∀ w, (hw : w < s.points.length) → (dataOf name ss).points[w + nbPoints done]? = some (s.points[w].round) := by
          intro w hw
          show (ss.flatMap fun s => s.points.map Pt.round)[w + nbPoints done]? = _
          rw [h1, Nat.add_comm]
          exact point_at (List.getElem?_eq_getElem hw)
        have hlen : nbPoints done + s.points.length ≤ nbPoints (done ++ s :: todo) := by simp [nbPoints]
        have a1 : Res.mapM' (stoneOf (dataOf name ss) ranks) ((s.starts.map fun e => (e.1 + nbPoints done, e.2 + nbPoints done)).map Prod.fst) =
            .ok (s.starts.map fun e => ((s.points[e.1]?.map Pt.round).getD ⟨Num.noData, Num.noData, Num.noData⟩, r, e.1)) := by
          rw [List.map_map]
          refine mapM'_map ?_
          intro e he
          have h := (hs.starts e he).1
          simp only [Function.comp]
          unfold stoneOf
          rw [index_eq_ok.2 (hpt _ h), ok_bind, hloc _ h, ok_bind, List.getElem?_eq_getElem h]
          rfl
        have a2 : Res.mapM' (startAt (dataOf name ss) ranks) (s.starts.map fun e => (e.1 + nbPoints done, e.2 + nbPoints done)) =
            .ok (s.starts.map fun e => (r, e)) := by
          refine mapM'_map ?_
          intro e he
          have h := hs.starts e he
          unfold startAt
          rw [hloc _ h.1, ok_bind]
          simp only [pure_eq]
          rw [sub32_of_le (by omega) (by omega), Nat.add_sub_cancel]
        refine ⟨s.starts.map (fun e => ((s.points[e.1]?.map Pt.round).getD ⟨Num.noData, Num.noData, Num.noData⟩, r, e.1)) ++ recs, ?_, ?_, ?_⟩
        · rw [lineStarts, List.map_append]
          rw [hnb]
          exact mapM'_append _ a1 g1
        · rw [List.map_append, g2]
          unfold savedStones
          rw [List.zip_cons_cons, List.flatMap_cons, List.map_append, List.map_map, List.map_map]
          congr 1
          refine List.map_congr_left ?_
          intro e he
          have h := (hs.starts e he).1
          simp only [Function.comp, List.getElem?_eq_getElem h]
          rfl
        · rw [lineStarts, hnb]
          unfold savedStones at g3 ⊢
          rw [List.zip_cons_cons, List.flatMap_cons, List.map_append, List.map_map]
          exact mapM'_append _ a2 g3
  exact key [] ss [] ranks rfl rfl rfl hr

/-- **The corners and the line starts of surfaces survive save and load**: those of each surface are read on that surface, at the same vertices and
points, in order. -/
theorem starts_kept [LawfulNum D] {kind name : Str} (hn : GoodObjectName name) {ss : List (Surface D)} (hne : ss ≠ []) (hg : ∀ s ∈ ss, GoodSurface s)
    (hW : 1 + nbPoints ss ≤ W) (rest : File) (ranks : List Nat) (hr : ranks.length = ss.length) :
    ∃ (ts : TSurf D) (records : List (Pt D × Nat × Nat)), readTSurf (writeTSurf kind name ss ++ rest) = .ok (some (ts, rest)) ∧
      stones ts ranks = .ok records ∧
      records.map some = (savedStones ranks ss).map (fun x => (x.2.1.points[x.2.2.1]?).map fun p => (p.round, x.1, x.2.2.1)) ∧
      startsAt ts ranks = .ok ((savedStones ranks ss).map fun x => (x.1, x.2.2)) := by
  obtain ⟨records, g1, g2, g3⟩ := stones_dataOf name hg hW ranks hr
  exact ⟨dataOf name ss, records, readTSurf_written hn hne hg hW rest, g1, g2, g3⟩

/-! ## Any file -/

theorem tsLine_grows {ts t : TSurf D} {kw : Str} {tokens : List Str} (ht : tsLine ts kw tokens = .ok t) :
    (t.tfaceVertices = ts.tfaceVertices ∧ ts.points.length ≤ t.points.length) ∨ t = tsClose ts := by
  unfold tsLine at ht
  split at ht
  · unfold tsVrtx at ht
    obtain ⟨o, _, ht⟩ := bind_eq_ok.1 ht
    obtain ⟨p, _, ht⟩ := bind_eq_ok.1 ht
    obtain ⟨a, _, ht⟩ := bind_eq_ok.1 ht
    rw [← Res.ok.inj ht]; exact Or.inl ⟨rfl, by simp⟩
  split at ht
  · unfold tsAtom at ht
    obtain ⟨o, _, ht⟩ := bind_eq_ok.1 ht
    obtain ⟨o', _, ht⟩ := bind_eq_ok.1 ht
    obtain ⟨p, _, ht⟩ := bind_eq_ok.1 ht
    obtain ⟨a, _, ht⟩ := bind_eq_ok.1 ht
    rw [← Res.ok.inj ht]; exact Or.inl ⟨rfl, by simp⟩
  split at ht
  · unfold tsTrgl at ht
    obtain ⟨_, _, ht⟩ := bind_eq_ok.1 ht
    obtain ⟨_, _, ht⟩ := bind_eq_ok.1 ht
    obtain ⟨_, _, ht⟩ := bind_eq_ok.1 ht
    obtain ⟨_, _, ht⟩ := bind_eq_ok.1 ht
    obtain ⟨_, _, ht⟩ := bind_eq_ok.1 ht
    obtain ⟨_, _, ht⟩ := bind_eq_ok.1 ht
    rw [← Res.ok.inj ht]; exact Or.inl ⟨rfl, Nat.le_refl _⟩
  split at ht
  · unfold tsBstone at ht
    obtain ⟨_, _, ht⟩ := bind_eq_ok.1 ht
    obtain ⟨_, _, ht⟩ := bind_eq_ok.1 ht
    rw [← Res.ok.inj ht]; exact Or.inl ⟨rfl, Nat.le_refl _⟩
  split at ht
  · unfold tsBorder at ht
    obtain ⟨_, _, ht⟩ := bind_eq_ok.1 ht
    obtain ⟨_, _, ht⟩ := bind_eq_ok.1 ht
    obtain ⟨_, _, ht⟩ := bind_eq_ok.1 ht
    obtain ⟨_, _, ht⟩ := bind_eq_ok.1 ht
    rw [← Res.ok.inj ht]; exact Or.inl ⟨rfl, Nat.le_refl _⟩
  split at ht
  · exact Or.inr (Res.ok.inj ht).symm
  · rw [← Res.ok.inj ht]; exact Or.inl ⟨rfl, Nat.le_refl _⟩

/-- The first vertices of the faces read so far. -/
def Offsets (ts : TSurf D) : Prop := ts.tfaceVertices[0]? = some 0 ∧ ∀ o ∈ ts.tfaceVertices, o ≤ ts.points.length

theorem close_offsets {ts : TSurf D} (h : Offsets ts) : Offsets (tsClose ts) := by
  refine ⟨?_, ?_⟩
  · show (ts.tfaceVertices ++ [ts.points.length])[0]? = some 0
    have h0 := h.1
    rw [List.getElem?_append_left (List.getElem?_eq_some_iff.1 h0).1]
    exact h0
  · intro o ho
    rcases List.mem_append.1 ho with ho | ho
    · exact h.2 o ho
    · have : o = ts.points.length := by simpa using ho
      rw [this]
      exact Nat.le_refl _

theorem loop_offsets : ∀ {f : File} {ts ts' : TSurf D} {rest : File}, Offsets ts → readTfacesLoop ts f = .ok (ts', rest) →
    Offsets ts' ∧ ts'.tfaceVertices.getLast? = some ts'.points.length
  | [], _, _, _, _, h => by cases h
  | l :: ls, ts, ts', rest, h0, h => by
    unfold readTfacesLoop at h
    cases hs : split l with
    | nil => rw [hs] at h; cases h
    | cons kw args =>
      rw [hs] at h
      simp only at h
      split at h
      · injection h with h
        have : tsClose ts = ts' := congrArg Prod.fst h
        rw [← this]
        exact ⟨close_offsets h0, by simp [tsClose]⟩
      · obtain ⟨t, ht, h⟩ := bind_eq_ok.1 h
        refine loop_offsets ?_ h
        rcases tsLine_grows ht with ⟨h1, h2⟩ | rfl
        · exact ⟨by rw [h1]; exact h0.1, fun o ho => Nat.le_trans (h0.2 o (by rw [← h1]; exact ho)) h2⟩
        · exact close_offsets h0

theorem read_offsets {f rest : File} {ts : TSurf D} (h : readTSurf f = .ok (some (ts, rest))) :
    Offsets ts ∧ ts.tfaceVertices.getLast? = some ts.points.length := by
  unfold readTSurf at h
  split at h
  · cases h
  · obtain ⟨⟨name, f1⟩, _, h⟩ := bind_eq_ok.1 h
    obtain ⟨⟨crs, f2⟩, _, h⟩ := bind_eq_ok.1 h
    obtain ⟨⟨props, f3⟩, _, h⟩ := bind_eq_ok.1 h
    obtain ⟨r, hr, h⟩ := bind_eq_ok.1 h
    have e : r = (ts, rest) := Option.some.inj (Res.ok.inj h)
    subst e
    unfold readTfaces at hr
    obtain ⟨⟨_, f4⟩, _, hr⟩ := bind_eq_ok.1 hr
    refine loop_offsets ⟨rfl, ?_⟩ hr
    intro o ho
    have : o = 0 := by simpa using ho
    rw [this]
    exact Nat.zero_le _

theorem buildFaces_at {ts : TSurf D} : ∀ {tfaces : List Nat} {i : Nat} {faces : List (Nat × List (Pt D) × List Tri)},
    buildFaces ts i tfaces = .ok faces → ∀ k s, tfaces[k]? = some s → ∃ F a b, F ∈ faces ∧ F.1 = s ∧ ts.tfaceVertices[i + k]? = some a ∧
      ts.tfaceVertices[i + k + 1]? = some b ∧ F.2.1 = slice ts.points a b
  | [], _, _, _, k, s, hk => by simp at hk
  | t :: tfaces, i, faces, h, k, s, hk => by
    rw [buildFaces] at h
    obtain ⟨F, hF, h⟩ := bind_eq_ok.1 h
    obtain ⟨r, hr, h⟩ := bind_eq_ok.1 h
    have e : F :: r = faces := Res.ok.inj h
    subst e
    cases k with
    | zero =>
      unfold buildFace at hF
      obtain ⟨a, ha, hF⟩ := bind_eq_ok.1 hF
      obtain ⟨b, hb, hF⟩ := bind_eq_ok.1 hF
      obtain ⟨_, _, hF⟩ := bind_eq_ok.1 hF
      obtain ⟨_, _, hF⟩ := bind_eq_ok.1 hF
      obtain ⟨_, _, hF⟩ := bind_eq_ok.1 hF
      have e := Res.ok.inj hF
      refine ⟨F, a, b, by simp, ?_, index_eq_ok.1 ha, index_eq_ok.1 hb, ?_⟩
      · rw [← e]; simpa using hk
      · rw [← e]
    | succ k =>
      obtain ⟨F', a, b, h1, h2, h3, h4, h5⟩ := buildFaces_at hr k s (by simpa using hk)
      exact ⟨F', a, b, by simp [h1], h2, by rw [← h3]; congr 1; omega, by rw [← h4]; congr 1; omega, h5⟩

theorem slice_at {A : Type} {l : List A} {a b c : Nat} (h1 : a ≤ c) (h2 : c < b) : (slice l a b)[c - a]? = l[c]? := by
  unfold slice
  rw [List.getElem?_take, if_pos (by omega), List.getElem?_drop]
  congr 1
  omega

/-- **A corner is where its surface says it is**: in any file that is read, the point of a corner record is the point of the vertex found for it, on the
surface found for it. -/
theorem stone_on_surface {f rest : File} {ts : TSurf D} (h : readTSurf f = .ok (some (ts, rest))) (hW : ts.points.length ≤ W) {tfaces : List Nat}
    {faces : List (Nat × List (Pt D) × List Tri)} (hb : buildFaces ts 0 tfaces = .ok faces) {c : Nat} {p : Pt D} {s v : Nat}
    (hs : stoneOf ts tfaces c = .ok (p, s, v)) : ∃ F ∈ faces, F.1 = s ∧ F.2.1[v]? = some p ∧ ts.points[c]? = some p := by
  obtain ⟨⟨h0, hle⟩, hl⟩ := read_offsets h
  unfold stoneOf at hs
  obtain ⟨q, hq, hs⟩ := bind_eq_ok.1 hs
  obtain ⟨⟨s', v', o⟩, hloc, hs⟩ := bind_eq_ok.1 hs
  have e := Res.ok.inj hs
  injection e with e1 e
  injection e with e2 e3
  subst e1 e2 e3
  have hc : c < ts.points.length := (List.getElem?_eq_some_iff.1 (index_eq_ok.1 hq)).1
  obtain ⟨a, b, ha, hb', hac, hcb⟩ := face_found h0 hl hc
  unfold located at hloc
  obtain ⟨s2, hs2, hloc⟩ := bind_eq_ok.1 hloc
  obtain ⟨o2, ho2, hloc⟩ := bind_eq_ok.1 hloc
  have e := Res.ok.inj hloc
  injection e with e1 e
  injection e with e2 e3
  subst e1 e3
  have ho := index_eq_ok.1 ho2
  rw [ha] at ho
  injection ho with ho
  subst ho
  rw [sub32_of_le hac (by omega)] at e2
  subst e2
  obtain ⟨F, a', b', hF, hF1, ha', hb'', hF2⟩ := buildFaces_at hb _ _ (index_eq_ok.1 hs2)
  rw [Nat.zero_add] at ha' hb''
  rw [ha] at ha'
  rw [hb'] at hb''
  injection ha' with ha'
  injection hb'' with hb''
  subst ha' hb''
  exact ⟨F, hF, hF1, by rw [hF2, slice_at hac hcb]; exact index_eq_ok.1 hq, index_eq_ok.1 hq⟩

/-- **A line start is a vertex of its surface, and so is the next one when it is in the same face.** -/
theorem start_on_surface {f rest : File} {ts : TSurf D} (h : readTSurf f = .ok (some (ts, rest))) (hW : ts.points.length ≤ W) {tfaces : List Nat}
    {faces : List (Nat × List (Pt D) × List Tri)} (hb : buildFaces ts 0 tfaces = .ok faces) {c n : Nat} {s v w : Nat}
    (hs : startAt ts tfaces (c, n) = .ok (s, v, w)) : ∃ F ∈ faces, F.1 = s ∧ ∃ a b, F.2.1 = slice ts.points a b ∧ a ≤ c ∧ c < b ∧ v = c - a ∧
      (a ≤ n → n < W → w = n - a) := by
  obtain ⟨⟨h0, hle⟩, hl⟩ := read_offsets h
  unfold startAt at hs
  obtain ⟨⟨s', v', o⟩, hloc, hs⟩ := bind_eq_ok.1 hs
  have e := Res.ok.inj hs
  injection e with e1 e
  injection e with e2 e3
  subst e1 e2 e3
  unfold located at hloc
  obtain ⟨s2, hs2, hloc⟩ := bind_eq_ok.1 hloc
  obtain ⟨o2, ho2, hloc⟩ := bind_eq_ok.1 hloc
  have e := Res.ok.inj hloc
  injection e with e1 e
  injection e with e2 e3
  subst e1 e3
  obtain ⟨F, a', b', hF, hF1, ha', hb', hF2⟩ := buildFaces_at hb _ _ (index_eq_ok.1 hs2)
  rw [Nat.zero_add] at ha' hb'
  have hc : c < ts.points.length := by
    refine Nat.lt_of_not_le fun hc => ?_
    rcases tfaceIdFrom_spec ts.tfaceVertices.tail 0 c with ⟨_, h2⟩ | ⟨x, o, y, hx, h1, h2, h3⟩
    · unfold tfaceId at hb'
      rw [h2, List.length_tail] at hb'
      have := (List.getElem?_eq_some_iff.1 hb').1
      omega
    · cases hv : ts.tfaceVertices with
      | nil => rw [hv] at h0; cases h0
      | cons o0 os =>
        have hmem : o ∈ ts.tfaceVertices := by rw [hv]; rw [hv] at hx; simp only [List.tail_cons] at hx; rw [hx]; simp
        exact absurd (hle o hmem) (by omega)
  obtain ⟨a, b, ha, hb2, hac, hcb⟩ := face_found h0 hl hc
  have ho := index_eq_ok.1 ho2
  rw [ha] at ho ha'
  rw [hb2] at hb'
  injection ho with ho
  injection ha' with ha'
  injection hb' with hb'
  subst ho ha' hb'
  rw [sub32_of_le hac (by omega)] at e2
  exact ⟨F, hF, hF1, a, b, hF2, hac, hcb, e2.symm, fun h1 h2 => sub32_of_le h1 h2⟩

/-! ## Surfaces are announced once -/

/-- The surfaces of the TSurfs announced so far are different and among the surfaces. -/
def Announced (st : RState) : Prop := (st.tsurfs.flatMap RTsurf.tfaces).Nodup ∧ ∀ x ∈ st.tsurfs.flatMap RTsurf.tfaces, x < st.surfaces.length

theorem set_perm : ∀ (l : List RTsurf) (i : Nat) (t : RTsurf) (feature : Str) (n : Nat), l[i]? = some t →
    ((l.set i { t with feature, tfaces := t.tfaces ++ [n] }).flatMap RTsurf.tfaces).Perm (n :: l.flatMap RTsurf.tfaces)
  | [], _, _, _, _, h => by simp at h
  | a :: l, 0, t, feature, n, h => by
    have : a = t := by simpa using h
    subst this
    simp only [List.set_cons_zero, List.flatMap_cons, List.append_assoc, List.singleton_append]
    exact List.perm_middle
  | a :: l, i + 1, t, feature, n, h => by
    simp only [List.set_cons_succ, List.flatMap_cons]
    exact ((set_perm l i t feature n (by simpa using h)).append_left _).trans List.perm_middle

theorem announced_step {st st' : RState} {mode mode' : Mode} {l : Str} (h : Announced st) (hs : step (st, mode) l = .ok (st', mode')) : Announced st' := by
  have keep : ∀ {a b : RState}, Announced a → b.tsurfs = a.tsurfs → b.surfaces = a.surfaces → Announced b := by
    intro a b h h1 h2
    unfold Announced
    rw [h1, h2]
    exact h
  cases mode with
  | top =>
    simp only [step] at hs
    unfold topLine at hs
    split at hs
    · cases hs
    · cases hs
    · rename_i kw tokens
      split at hs
      · have e := congrArg Prod.fst (Res.ok.inj hs)
        simp only at e
        rw [← e]
        unfold readTsurfKeyword Announced
        simp only [List.flatMap_append, List.flatMap_cons, List.flatMap_nil, List.append_nil]
        exact h
      split at hs
      · obtain ⟨s2, h2, hs⟩ := bind_eq_ok.1 hs
        have e := congrArg Prod.fst (Res.ok.inj hs)
        simp only at e
        rw [← e]
        unfold readTfaceKeyword at h2
        obtain ⟨feature, _, h2⟩ := bind_eq_ok.1 h2
        obtain ⟨_, _, h2⟩ := bind_eq_ok.1 h2
        simp only at h2
        obtain ⟨i, _, h2⟩ := bind_eq_ok.1 h2
        obtain ⟨t, ht, h2⟩ := bind_eq_ok.1 h2
        rw [← Res.ok.inj h2]
        have hp := set_perm st.tsurfs i t feature st.surfaces.length (index_eq_ok.1 ht)
        refine ⟨?_, ?_⟩
        · rw [hp.nodup_iff, List.nodup_cons]
          exact ⟨fun hx => Nat.lt_irrefl _ (h.2 _ hx), h.1⟩
        · intro x hx
          have := hp.mem_iff.1 hx
          simp only [List.length_append, List.length_singleton]
          rcases List.mem_cons.1 this with rfl | hx
          · omega
          · have := h.2 x hx; omega
      split at hs
      · obtain ⟨_, _, hs⟩ := bind_eq_ok.1 hs
        have e := congrArg Prod.fst (Res.ok.inj hs)
        simp only at e
        rw [← e]
        exact h
      split at hs
      · have e := congrArg Prod.fst (Res.ok.inj hs)
        simp only at e
        rw [← e]
        exact h
      split at hs
      · have e := congrArg Prod.fst (Res.ok.inj hs)
        simp only at e
        rw [← e]
        exact h
      · have e := congrArg Prod.fst (Res.ok.inj hs)
        simp only at e
        rw [← e]
        exact h
  | outside =>
    simp only [step] at hs
    obtain ⟨⟨acc, closed⟩, _, hs⟩ := bind_eq_ok.1 hs
    have e := congrArg Prod.fst (Res.ok.inj hs)
    simp only at e
    rw [← e]
    exact keep h rfl rfl
  | block name acc =>
    simp only [step] at hs
    obtain ⟨⟨acc, closed⟩, _, hs⟩ := bind_eq_ok.1 hs
    simp only at hs
    split at hs
    · obtain ⟨s2, h2, hs⟩ := bind_eq_ok.1 hs
      have e := congrArg Prod.fst (Res.ok.inj hs)
      simp only at e
      rw [← e]
      unfold closeBlock at h2
      obtain ⟨_, _, h2⟩ := bind_eq_ok.1 h2
      obtain ⟨_, _, h2⟩ := bind_eq_ok.1 h2
      rw [← Res.ok.inj h2]
      exact keep h rfl rfl
    · have e := congrArg Prod.fst (Res.ok.inj hs)
      simp only at e
      rw [← e]
      exact h
  | layer name acc =>
    simp only [step] at hs
    obtain ⟨⟨acc, closed⟩, _, hs⟩ := bind_eq_ok.1 hs
    simp only at hs
    split at hs
    · have e := congrArg Prod.fst (Res.ok.inj hs)
      simp only at e
      rw [← e]
      exact keep h rfl rfl
    · have e := congrArg Prod.fst (Res.ok.inj hs)
      simp only at e
      rw [← e]
      exact h
  | faultBlock name acc =>
    simp only [step] at hs
    obtain ⟨⟨acc, closed⟩, _, hs⟩ := bind_eq_ok.1 hs
    simp only at hs
    split at hs
    · have e := congrArg Prod.fst (Res.ok.inj hs)
      simp only at e
      rw [← e]
      exact keep h rfl rfl
    · have e := congrArg Prod.fst (Res.ok.inj hs)
      simp only at e
      rw [← e]
      exact h

theorem announced_lines : ∀ {f : File} {st st' : RState} {mode : Mode} {rest : File}, Announced st → readLines (st, mode) f = .ok (st', rest) → Announced st'
  | [], st, st', mode, rest, _, h => by cases mode <;> cases h
  | l :: ls, st, st', mode, rest, h0, h => by
    have e : readLines (st, mode) (l :: ls) = if mode = .top ∧ startsWith l cs!"END" = true then .ok (st, ls)
        else step (st, mode) l >>= fun s => readLines s ls := by cases mode <;> rfl
    rw [e] at h
    split at h
    · have e := congrArg Prod.fst (Res.ok.inj h)
      simp only at e
      rw [← e]
      exact h0
    · obtain ⟨⟨s2, m2⟩, h2, h⟩ := bind_eq_ok.1 h
      exact announced_lines (announced_step h0 h2) h

/-- **A surface is announced in one TSurf only, once**, in any file that is read. -/
theorem faces_distinct {f rest : File} {st : RState} (h : readLines ({}, .top) f = .ok (st, rest)) :
    (st.tsurfs.flatMap RTsurf.tfaces).Nodup ∧ ∀ x ∈ st.tsurfs.flatMap RTsurf.tfaces, x < st.surfaces.length :=
  announced_lines (st := {}) ⟨List.nodup_nil, by simp⟩ h

/-! ## The corners made -/

/-- What is relied on of the search of points at one place: every point is given one of the points kept, near it, and points that are equal are given
the same one. -/
structure Merges {P : Type} (near : P → P → Prop) (merge : Merge P) : Prop where
  length : ∀ ps, (merge ps).2.length = ps.length
  kept : ∀ (ps : List P) (i : Nat) (p : P) (k : Nat), ps[i]? = some p → (merge ps).2[i]? = some k → ∃ q, (merge ps).1[k]? = some q ∧ near p q
  same : ∀ (ps : List P) (i j : Nat) (p : P), ps[i]? = some p → ps[j]? = some p → (merge ps).2[i]? = (merge ps).2[j]?

theorem cornerAt_mem {set : List ((Nat × Nat) × Nat)} {s v k : Nat} (h : cornerAt set s v = some k) : ((s, v), k) ∈ set := by
  unfold cornerAt at h
  obtain ⟨e, he, rfl⟩ := Option.map_eq_some_iff.1 h
  have h1 := List.mem_of_find?_eq_some he
  have h2 := List.find?_some he
  rw [List.mem_reverse] at h1
  have : e.1 = (s, v) := by simpa using h2
  rw [← this]
  exact h1

theorem cornerAt_some {set : List ((Nat × Nat) × Nat)} {s v k : Nat} (h : ((s, v), k) ∈ set) : ∃ k', cornerAt set s v = some k' := by
  unfold cornerAt
  cases hf : set.reverse.find? fun e => decide (e.1 = (s, v)) with
  | some e => exact ⟨e.2, rfl⟩
  | none =>
    have := List.find?_eq_none.1 hf ((s, v), k) (List.mem_reverse.2 h)
    simp at this

theorem zip_mem {A B : Type} {l : List A} {r : List B} {x : A × B} (h : x ∈ l.zip r) : ∃ i : Nat, l[i]? = some x.1 ∧ r[i]? = some x.2 := by
  obtain ⟨i, hi⟩ := List.getElem?_of_mem h
  exact ⟨i, (List.getElem?_zip_eq_some.1 hi).1, (List.getElem?_zip_eq_some.1 hi).2⟩

/-- **Every vertex recorded is given the corner at its place**, when records of one vertex have one point. -/
theorem corners_given {P : Type} {near : P → P → Prop} {merge : Merge P} (hm : Merges near merge) {records : List (P × Nat × Nat)}
    (hc : ∀ r ∈ records, ∀ r' ∈ records, r.2 = r'.2 → r.1 = r'.1) {p : P} {s v : Nat} (hr : (p, s, v) ∈ records) :
    ∃ k q, cornerAt (cornersMade merge records).2 s v = some k ∧ (cornersMade merge records).1[k]? = some q ∧ near p q := by
  obtain ⟨i, hi⟩ := List.getElem?_of_mem hr
  have hlen := hm.length (records.map Prod.fst)
  have hil : i < (merge (records.map Prod.fst)).2.length := by
    rw [hlen, List.length_map]
    exact (List.getElem?_eq_some_iff.1 hi).1
  have hmem : ((s, v), (merge (records.map Prod.fst)).2[i]) ∈ (cornersMade merge records).2 := by
    refine List.mem_of_getElem? (i := i) ?_
    unfold cornersMade
    refine List.getElem?_zip_eq_some.2 ⟨?_, List.getElem?_eq_getElem hil⟩
    rw [List.getElem?_map, hi]
    rfl
  obtain ⟨k, hk⟩ := cornerAt_some hmem
  obtain ⟨j, hj1, hj2⟩ := zip_mem (cornerAt_mem hk)
  rw [List.getElem?_map] at hj1
  obtain ⟨r, hrj, hr2⟩ := Option.map_eq_some_iff.1 hj1
  have hp : r.1 = p := hc r (List.mem_of_getElem? hrj) (p, s, v) hr hr2
  have hpj : (records.map Prod.fst)[j]? = some p := by rw [List.getElem?_map, hrj, ← hp]; rfl
  obtain ⟨q, hq, hnear⟩ := hm.kept _ j p k hpj hj2
  exact ⟨k, q, hk, hq, hnear⟩

/-- Vertices at equal points are at one corner. -/
theorem corners_shared {P : Type} {near : P → P → Prop} {merge : Merge P} (hm : Merges near merge) {records : List (P × Nat × Nat)}
    (hc : ∀ r ∈ records, ∀ r' ∈ records, r.2 = r'.2 → r.1 = r'.1) {p : P} {s v s' v' : Nat} (hr : (p, s, v) ∈ records) (hr' : (p, s', v') ∈ records) :
    cornerAt (cornersMade merge records).2 s v = cornerAt (cornersMade merge records).2 s' v' := by
  have key : ∀ {s v}, (p, s, v) ∈ records → ∃ j : Nat, cornerAt (cornersMade merge records).2 s v = (merge (records.map Prod.fst)).2[j]? ∧
      (records.map Prod.fst)[j]? = some p := by
    intro s v hr
    obtain ⟨k, q, hk, _, _⟩ := corners_given hm hc hr
    obtain ⟨j, hj1, hj2⟩ := zip_mem (cornerAt_mem hk)
    rw [List.getElem?_map] at hj1
    obtain ⟨r, hrj, hr2⟩ := Option.map_eq_some_iff.1 hj1
    have hp : r.1 = p := hc r (List.mem_of_getElem? hrj) (p, s, v) hr hr2
    exact ⟨j, by rw [hk]; exact hj2.symm, by rw [List.getElem?_map, hrj, ← hp]; rfl⟩
  obtain ⟨j, h1, h2⟩ := key hr
  obtain ⟨j', h1', h2'⟩ := key hr'
  rw [h1, h1']
  exact hm.same _ j j' p h2 h2'

/-- Only vertices recorded are at corners. -/
theorem corners_only {P : Type} {merge : Merge P} {records : List (P × Nat × Nat)} {s v k : Nat}
    (h : cornerAt (cornersMade merge records).2 s v = some k) : ∃ p, (p, s, v) ∈ records := by
  obtain ⟨i, h1, _⟩ := zip_mem (cornerAt_mem h)
  rw [List.getElem?_map] at h1
  obtain ⟨r, hr, hr2⟩ := Option.map_eq_some_iff.1 h1
  refine ⟨r.1, ?_⟩
  have : r = (r.1, s, v) := Prod.ext rfl hr2
  rw [← this]
  exact List.mem_of_getElem? hr

/-! ## Corners of any file -/

/-- A file without the mesh of one of its TSurfs is rejected. -/
theorem missing_data {ts : List RTsurf} {t : RTsurf} {f : File} (h : ∀ l ∈ f, startsWith l cs!"GOCAD TSurf" = false) :
    (readData (t :: ts) f : Res (List (TSurf D × List Nat))) = .throw := by
  have : gotoKeyword? cs!"GOCAD TSurf" f = none := by
    induction f with
    | nil => rfl
    | cons l ls ih =>
      rw [gotoKeyword?, if_neg (by rw [h l (by simp)]; simp)]
      exact ih fun l hl => h l (by simp [hl])
  rw [readData]
  unfold readTSurf
  rw [this]
  rfl

theorem readData_surfaces : ∀ {ts : List RTsurf} {f : File} {meshes : List (Nat × List (Pt D) × List Tri)} {T : List (TSurf D × List Nat)},
    readSurfaces ts f = .ok meshes → readData ts f = .ok T →
    T.map Prod.snd = ts.map RTsurf.tfaces ∧ meshes.map Prod.fst = ts.flatMap RTsurf.tfaces ∧
    ∀ x ∈ T, ∃ f rest faces, readTSurf f = .ok (some (x.1, rest)) ∧ buildFaces x.1 0 x.2 = .ok faces ∧ ∀ F ∈ faces, F ∈ meshes
  | [], _, meshes, T, h1, h2 => by
    rw [readSurfaces] at h1
    rw [readData] at h2
    rw [← Res.ok.inj h1, ← Res.ok.inj h2]
    exact ⟨rfl, rfl, by simp⟩
  | t :: ts, f, meshes, T, h1, h2 => by
    rw [readSurfaces] at h1
    rw [readData] at h2
    obtain ⟨o, ho, h1⟩ := bind_eq_ok.1 h1
    rw [ho, ok_bind] at h2
    cases o with
    | none => cases h1
    | some d =>
      obtain ⟨data, f'⟩ := d
      simp only at h1 h2
      obtain ⟨faces, hf, h1⟩ := bind_eq_ok.1 h1
      obtain ⟨ms, hms, h1⟩ := bind_eq_ok.1 h1
      obtain ⟨T', hT', h2⟩ := bind_eq_ok.1 h2
      rw [← Res.ok.inj h1, ← Res.ok.inj h2]
      obtain ⟨g1, g2, g3⟩ := readData_surfaces hms hT'
      refine ⟨by simp [g1], ?_, ?_⟩
      · rw [List.map_append, List.flatMap_cons, g2]
        congr 1
        have : ∀ (l : List Nat) (i : Nat) (fs : List (Nat × List (Pt D) × List Tri)), buildFaces data i l = .ok fs → fs.map Prod.fst = l := by
          intro l
          induction l with
          | nil => intro i fs h; rw [← Res.ok.inj h]; rfl
          | cons a l ih =>
            intro i fs h
            rw [buildFaces] at h
            obtain ⟨F, hF, h⟩ := bind_eq_ok.1 h
            obtain ⟨r, hr, h⟩ := bind_eq_ok.1 h
            rw [← Res.ok.inj h, List.map_cons, ih _ _ hr]
            unfold buildFace at hF
            obtain ⟨_, _, hF⟩ := bind_eq_ok.1 hF
            obtain ⟨_, _, hF⟩ := bind_eq_ok.1 hF
            obtain ⟨_, _, hF⟩ := bind_eq_ok.1 hF
            obtain ⟨_, _, hF⟩ := bind_eq_ok.1 hF
            obtain ⟨_, _, hF⟩ := bind_eq_ok.1 hF
            rw [← Res.ok.inj hF]
        exact this _ _ _ hf
      · intro x hx
        rcases List.mem_cons.1 hx with rfl | hx
        · exact ⟨f, f', faces, ho, hf, fun F hF => by simp [hF]⟩
        · obtain ⟨a, b, c, d1, d2, d3⟩ := g3 x hx
          exact ⟨a, b, c, d1, d2, fun F hF => by simp [d3 F hF]⟩

theorem mem_mapM' {A B : Type} {f : A → Res B} : ∀ {l : List A} {r : List B}, Res.mapM' f l = .ok r → ∀ b ∈ r, ∃ a ∈ l, f a = .ok b
  | [], r, h, b, hb => by rw [← Res.ok.inj h] at hb; simp at hb
  | a :: l, r, h, b, hb => by
    rw [mapM'_cons] at h
    obtain ⟨x, hx, h⟩ := bind_eq_ok.1 h
    obtain ⟨xs, hxs, h⟩ := bind_eq_ok.1 h
    rw [← Res.ok.inj h] at hb
    rcases List.mem_cons.1 hb with rfl | hb
    · exact ⟨a, by simp, hx⟩
    · obtain ⟨a', h1, h2⟩ := mem_mapM' hxs b hb
      exact ⟨a', by simp [h1], h2⟩

theorem mem_allStones : ∀ {T : List (TSurf D × List Nat)} {rs : List (Pt D × Nat × Nat)}, allStones T = .ok rs →
    ∀ r ∈ rs, ∃ x ∈ T, ∃ c, stoneOf x.1 x.2 c = .ok r
  | [], rs, h, r, hr => by rw [← Res.ok.inj h] at hr; simp at hr
  | x :: T, rs, h, r, hr => by
    rw [allStones] at h
    obtain ⟨a, ha, h⟩ := bind_eq_ok.1 h
    obtain ⟨b, hb, h⟩ := bind_eq_ok.1 h
    rw [← Res.ok.inj h] at hr
    rcases List.mem_append.1 hr with hr | hr
    · obtain ⟨c, _, hc⟩ := mem_mapM' ha r hr
      exact ⟨x, by simp, c, hc⟩
    · obtain ⟨y, hy, c, hc⟩ := mem_allStones hb r hr
      exact ⟨y, by simp [hy], c, hc⟩

/-- **In any file that is loaded, every corner record gives its vertex a corner where the surface has that vertex.** -/
theorem corners_placed {near : Pt D → Pt D → Prop} {merge : Merge (Pt D)} (hm : Merges near merge) {f f' : File} {st : RState}
    (hl : readLines ({}, .top) f = .ok (st, f')) {meshes : List (Nat × List (Pt D) × List Tri)} (hs : readSurfaces st.tsurfs f' = .ok meshes)
    {T : List (TSurf D × List Nat)} (hT : readData st.tsurfs f' = .ok T) (hW : ∀ x ∈ T, x.1.points.length ≤ W) {records : List (Pt D × Nat × Nat)}
    (hr : allStones T = .ok records) : ∀ r ∈ records, ∃ F ∈ meshes, F.1 = r.2.1 ∧ F.2.1[r.2.2]? = some r.1 ∧
      ∃ k q, cornerAt (cornersMade merge records).2 r.2.1 r.2.2 = some k ∧ (cornersMade merge records).1[k]? = some q ∧ near r.1 q := by
  obtain ⟨_, h2, h3⟩ := readData_surfaces hs hT
  have hnd : (meshes.map Prod.fst).Nodup := by rw [h2]; exact (faces_distinct hl).1
  have hon : ∀ r ∈ records, ∃ F ∈ meshes, F.1 = r.2.1 ∧ F.2.1[r.2.2]? = some r.1 := by
    intro r hr'
    obtain ⟨x, hx, c, hc⟩ := mem_allStones hr r hr'
    obtain ⟨g, rest, faces, d1, d2, d3⟩ := h3 x hx
    obtain ⟨F, hF, hF1, hF2, _⟩ := stone_on_surface d1 (hW x hx) d2 (p := r.1) (s := r.2.1) (v := r.2.2) hc
    exact ⟨F, d3 F hF, hF1, hF2⟩
  have hc : ∀ r ∈ records, ∀ r' ∈ records, r.2 = r'.2 → r.1 = r'.1 := by
    intro r h1 r' h1' e
    obtain ⟨F, hF, hF1, hF2⟩ := hon r h1
    obtain ⟨F', hF', hF1', hF2'⟩ := hon r' h1'
    have : F = F' := List.inj_on_of_nodup_map hnd hF hF' (by rw [hF1, hF1', e])
    rw [← this, ← e, hF2] at hF2'
    exact Option.some.inj hF2'
  intro r hr'
  obtain ⟨F, hF, hF1, hF2⟩ := hon r hr'
  exact ⟨F, hF, hF1, hF2, corners_given hm hc (p := r.1) (s := r.2.1) (v := r.2.2) hr'⟩

/-! ## Save and load of models -/

theorem readData_written [LawfulNum D] (f : Nat → Nat) : ∀ (T : List (Coll D)),
    (∀ t ∈ T, GoodName t.name ∧ t.items ≠ [] ∧ (∀ s ∈ t.items, GoodSurface s) ∧ 1 + nbPoints t.items ≤ W) →
    readData (T.map fun t => ⟨t.name, t.kind, (t.items.map Surface.id).map f⟩) (T.flatMap fun t => writeTSurf t.kind t.name t.items) =
      .ok (T.map fun t => (dataOf t.name t.items, (t.items.map Surface.id).map f))
  | [], _ => rfl
  | t :: T, h => by
    obtain ⟨h1, h2, h3, h4⟩ := h t List.mem_cons_self
    have ih := readData_written f T (fun t ht => h t (List.mem_cons_of_mem _ ht))
    rw [List.map_cons, List.flatMap_cons, readData, readTSurf_written h1.obj h2 h3 h4]
    simp only [Res.ok_bind]
    rw [ih]
    rfl

theorem mem_savedStones {ss : List (Surface D)} {f : Nat → Nat} {x : Nat × Surface D × (Nat × Nat)} :
    x ∈ savedStones ((ss.map Surface.id).map f) ss ↔ x.2.1 ∈ ss ∧ x.1 = f x.2.1.id ∧ x.2.2 ∈ x.2.1.starts := by
  unfold savedStones
  induction ss with
  | nil => simp
  | cons s ss ih =>
    rw [List.map_cons, List.map_cons, List.zip_cons_cons, List.flatMap_cons, List.mem_append, ih, List.mem_map]
    obtain ⟨r, t, e⟩ := x
    constructor
    · rintro (⟨e', he, h⟩ | ⟨h1, h2, h3⟩)
      · injection h with h1 h
        injection h with h2 h3
        subst h1 h2 h3
        exact ⟨by simp, rfl, he⟩
      · exact ⟨by simp [h1], h2, h3⟩
    · rintro ⟨h1, h2, h3⟩
      simp only at h1 h2 h3
      rcases List.mem_cons.1 h1 with rfl | h1
      · exact Or.inl ⟨e, h3, by rw [h2]⟩
      · exact Or.inr ⟨h1, h2, h3⟩

theorem all_written (f : Nat → Nat) : ∀ (T : List (Coll D)), (∀ t ∈ T, (∀ s ∈ t.items, GoodSurface s) ∧ 1 + nbPoints t.items ≤ W) →
    ∃ records starts, allStones (T.map fun t => (dataOf t.name t.items, (t.items.map Surface.id).map f)) = .ok records ∧
      allStarts (T.map fun t => (dataOf t.name t.items, (t.items.map Surface.id).map f)) = .ok starts ∧
      (∀ p r v, (p, r, v) ∈ records ↔ ∃ t ∈ T, ∃ s ∈ t.items, r = f s.id ∧ ∃ w q, (v, w) ∈ s.starts ∧ s.points[v]? = some q ∧ p = q.round) ∧
      (∀ r v w, (r, v, w) ∈ starts ↔ ∃ t ∈ T, ∃ s ∈ t.items, r = f s.id ∧ (v, w) ∈ s.starts)
  | [], _ => ⟨[], [], rfl, rfl, by simp, by simp⟩
  | t :: T, h => by
    obtain ⟨h1, h2⟩ := h t List.mem_cons_self
    obtain ⟨rs, sts, e1, e2, e3, e4⟩ := all_written f T (fun t ht => h t (List.mem_cons_of_mem _ ht))
    obtain ⟨records, g1, g2, g3⟩ := stones_dataOf t.name h1 h2 ((t.items.map Surface.id).map f) (by simp)
    refine ⟨records ++ rs, (savedStones ((t.items.map Surface.id).map f) t.items).map (fun x => (x.1, x.2.2)) ++ sts, ?_, ?_, ?_, ?_⟩
    · rw [List.map_cons, allStones, g1, ok_bind, e1]
      rfl
    · rw [List.map_cons, allStarts, g3, ok_bind, e2]
      rfl
    · intro p r v
      rw [List.mem_append, e3]
      have hm : (p, r, v) ∈ records ↔ some (p, r, v) ∈ records.map some := by simp
      rw [hm, g2, List.mem_map]
      constructor
      · rintro (⟨x, hx, hx2⟩ | ⟨t', ht', hh⟩)
        · obtain ⟨k1, k2, k3⟩ := mem_savedStones.1 hx
          obtain ⟨q, hq, hx2⟩ := Option.map_eq_some_iff.1 hx2
          injection hx2 with a1 a2
          injection a2 with a2 a3
          subst a3 a1 a2
          exact ⟨t, by simp, x.2.1, k1, k2, x.2.2.2, q, k3, hq, rfl⟩
        · exact ⟨t', by simp [ht'], hh⟩
      · rintro ⟨t', ht', s, hs, hr, w, q, hw, hq, hp⟩
        rcases List.mem_cons.1 ht' with rfl | ht'
        · refine Or.inl ⟨(r, s, (v, w)), mem_savedStones.2 ⟨hs, hr, hw⟩, ?_⟩
          simp only [hq, Option.map_some, hp]
        · exact Or.inr ⟨t', ht', s, hs, hr, w, q, hw, hq, hp⟩
    · intro r v w
      rw [List.mem_append, e4, List.mem_map]
      constructor
      · rintro (⟨x, hx, hx2⟩ | ⟨t', ht', hh⟩)
        · obtain ⟨k1, k2, k3⟩ := mem_savedStones.1 hx
          injection hx2 with a1 a2
          rw [a2] at k3
          exact ⟨t, by simp, x.2.1, k1, by rw [← a1]; exact k2, k3⟩
        · exact ⟨t', by simp [ht'], hh⟩
      · rintro ⟨t', ht', s, hs, hr, hw⟩
        rcases List.mem_cons.1 ht' with rfl | ht'
        · exact Or.inl ⟨(r, s, (v, w)), mem_savedStones.2 ⟨hs, hr, hw⟩, rfl⟩
        · exact Or.inr ⟨t', ht', s, hs, hr, hw⟩

theorem rank_inj {m : Model D} {a b : Nat} (ha : a ∈ order m) (hb : b ∈ order m) (h : rank m a = rank m b) : a = b := by
  unfold rank at h
  have h1 := List.getElem_idxOf (List.idxOf_lt_length_iff.2 ha)
  have h2 := List.getElem_idxOf (List.idxOf_lt_length_iff.2 hb)
  rw [← h1, ← h2]
  simp only [h]

/-- **The corners and the line starts of a model survive save and load**: those read on a surface are exactly those it had, at the points it has. -/
theorem model_starts_kept [LawfulNum D] (hp : PlainNumbers D) {m : Model D} {sides : Sides.AllSides} (g : GoodModel m sides) :
    ∃ (f : File) (records : List (Pt D × Nat × Nat)) (starts : List (Nat × Nat × Nat)), saveMl m sides = .ok f ∧ loadCorners f = .ok (records, starts) ∧
      ∀ s ∈ m.surfaces, s.id ∈ order m →
        (∀ p v, (p, rank m s.id, v) ∈ records ↔ ∃ w q, (v, w) ∈ s.starts ∧ s.points[v]? = some q ∧ p = q.round) ∧
        (∀ v w, (rank m s.id, v, w) ∈ starts ↔ (v, w) ∈ s.starts) := by
  obtain ⟨ls, st, h1, h2, h3⟩ := components_read hp g
  have hw := writeModelSurfaces_model g
  have hd := readData_written (rank m) (tsurfsOf m (collsOf m)) (fun t ht =>
    ⟨(colls_good g ht).2.1, (colls_good g ht).2.2, fun s hs => g.meshes s (items_good g ht hs), coll_points g ht⟩)
  obtain ⟨records, starts, e1, e2, e3, e4⟩ := all_written (rank m) (tsurfsOf m (collsOf m)) (fun t ht =>
    ⟨fun s hs => g.meshes s (items_good g ht hs), coll_points g ht⟩)
  refine ⟨[cs!"GOCAD Model3d 1"] ++ writeHeader m.name ++ writeCrs {} ++ ls ++ (tsurfsOf m (collsOf m)).flatMap fun t => writeTSurf t.kind t.name t.items,
    records, starts, ?_, ?_, ?_⟩
  · unfold saveMl
    rw [h1, hw]
    rfl
  · unfold loadCorners
    have e : [cs!"GOCAD Model3d 1"] ++ writeHeader m.name ++ writeCrs {} ++ ls ++ (tsurfsOf m (collsOf m)).flatMap (fun t => writeTSurf t.kind t.name t.items) =
        cs!"GOCAD Model3d 1" :: (writeHeader m.name ++ (writeCrs {} ++ (ls ++ (tsurfsOf m (collsOf m)).flatMap fun t => writeTSurf t.kind t.name t.items))) := by simp
    rw [e, gotoKeyword_here (by rfl), Res.ok_bind]
    simp only
    rw [readHeader_good g.name, Res.ok_bind]
    simp only
    rw [readCrs_default, Res.ok_bind]
    simp only
    rw [h3, Res.ok_bind]
    simp only
    rw [h2.tsurfs, hd, ok_bind, e1, ok_bind, e2]
    rfl
  · intro s hs ho
    have hid := idsOf_model g
    have hin : ∃ t ∈ tsurfsOf m (collsOf m), s ∈ t.items := by
      have ho' := ho
      rw [← hid] at ho'
      unfold idsOf at ho'
      obtain ⟨t, ht, hx⟩ := List.mem_flatMap.1 ho'
      obtain ⟨s', hs', hi⟩ := List.mem_map.1 hx
      have : s' = s := List.inj_on_of_nodup_map g.ids (items_good g ht hs') hs hi
      exact ⟨t, ht, this ▸ hs'⟩
    have hsame : ∀ t ∈ tsurfsOf m (collsOf m), ∀ s' ∈ t.items, rank m s.id = rank m s'.id → s' = s := by
      intro t ht s' hs' hr
      have ho' : s'.id ∈ order m := by
        rw [← hid]
        exact List.mem_flatMap.2 ⟨t, ht, List.mem_map.2 ⟨s', hs', rfl⟩⟩
      exact (List.inj_on_of_nodup_map g.ids hs (items_good g ht hs') (rank_inj ho ho' hr)).symm
    obtain ⟨t, ht, hst⟩ := hin
    refine ⟨fun p v => ?_, fun v w => ?_⟩
    · rw [e3]
      constructor
      · rintro ⟨t', ht', s', hs', hr, hh⟩
        rw [hsame t' ht' s' hs' hr] at hh
        exact hh
      · intro hh
        exact ⟨t, ht, s, hst, rfl, hh⟩
    · rw [e4]
      constructor
      · rintro ⟨t', ht', s', hs', hr, hh⟩
        rw [hsame t' ht' s' hs' hr] at hh
        exact hh
      · intro hh
        exact ⟨t, ht, s, hst, rfl, hh⟩

/-! ## Examples and files that are not reported -/

/-- Two surfaces with line starts. -/
def cornered : Model Int :=
  { surfaces := [{ MlCases.tri 1 with starts := [(0, 2), (1, 0)] }, { MlCases.tri 2 with starts := [(2, 1)] }], boundaries := [(cs!"A", [2, 1])] }

theorem cornered_good : GoodModel cornered MlCases.someSides where
  name := by intro n hn; cases hn
  meshes := by
    intro s hs
    have : s = { MlCases.tri 1 with starts := [(0, 2), (1, 0)] } ∨ s = { MlCases.tri 2 with starts := [(2, 1)] } := by simpa [cornered] using hs
    rcases this with rfl | rfl <;> exact ⟨by decide, by decide, by decide⟩
  ids := by decide
  once := by decide +kernel
  known := by decide +kernel
  faultNames := by decide
  horizonNames := by decide
  names := by decide +kernel
  distinct := by decide +kernel
  boundaryItems := by decide
  faultItems := by decide
  horizonItems := by decide
  contacts := by decide
  outside := by decide
  blocks := by intro b hb; cases hb
  units := by intro u hu; cases hu
  faultBlocks := by intro u hu; cases hu
  size := by decide +kernel
  points := by decide +kernel

example : ∃ (f : File) (records : List (Pt Int × Nat × Nat)) (starts : List (Nat × Nat × Nat)), saveMl cornered MlCases.someSides = .ok f ∧
    loadCorners f = .ok (records, starts) := by
  obtain ⟨f, r, s, h1, h2, _⟩ := model_starts_kept MlCases.plain_int cornered_good
  exact ⟨f, r, s, h1, h2⟩

example : (saveMl cornered MlCases.someSides >>= fun f => (loadCorners f : Res (List (Pt Int × Nat × Nat) × List (Nat × Nat × Nat)))) =
    .ok ([(⟨0, 1, 2⟩, 0, 2), (⟨0, 0, 0⟩, 1, 0), (⟨1, 0, 0⟩, 1, 1)], [(0, 2, 1), (1, 0, 2), (1, 1, 0)]) := by decide +kernel

/-- A file of two faces; `stones` and `borders` are its records. -/
def twoFaces (lines : File) : File :=
  [cs!"GOCAD Model3d 1", cs!"HEADER {", cs!"name:m", cs!"}", cs!"GOCAD_ORIGINAL_COORDINATE_SYSTEM", cs!"NAME Default",
    cs!"AXIS_NAME \"X\" \"Y\" \"Z\"", cs!"AXIS_UNIT \"m\" \"m\" \"m\"", cs!"ZPOSITIVE Elevation", cs!"END_ORIGINAL_COORDINATE_SYSTEM",
    cs!"TSURF a", cs!"TFACE 1 boundary a", cs!"TFACE 2 boundary a", cs!"END",
    cs!"GOCAD TSurf 1", cs!"HEADER {", cs!"name:a", cs!"}", cs!"GOCAD_ORIGINAL_COORDINATE_SYSTEM", cs!"NAME Default",
    cs!"AXIS_NAME \"X\" \"Y\" \"Z\"", cs!"AXIS_UNIT \"m\" \"m\" \"m\"", cs!"ZPOSITIVE Elevation", cs!"END_ORIGINAL_COORDINATE_SYSTEM",
    cs!"TFACE", cs!"VRTX 1 0 0 0", cs!"VRTX 2 1 0 0", cs!"VRTX 3 0 1 0", cs!"TRGL 1 2 3",
    cs!"TFACE", cs!"VRTX 4 5 0 0", cs!"VRTX 5 6 0 0", cs!"VRTX 6 5 1 0", cs!"TRGL 4 5 6"] ++ lines ++ [cs!"END"]

example : (loadCorners (twoFaces [cs!"BSTONE 2", cs!"BSTONE 4", cs!"BORDER 7 4 6"]) : Res (List (Pt Int × Nat × Nat) × List (Nat × Nat × Nat))) =
    .ok ([(⟨1, 0, 0⟩, 0, 1), (⟨5, 0, 0⟩, 1, 0)], [(1, 0, 2)]) := by decide +kernel

/-- A corner record that is not a number of a vertex is not reported: its point is out of bounds. -/
theorem stone_not_reported : (loadCorners (twoFaces [cs!"BSTONE 7"]) : Res (List (Pt Int × Nat × Nat) × List (Nat × Nat × Nat))) = .ub := by decide +kernel

/-- So is a line start. -/
theorem border_not_reported : (loadCorners (twoFaces [cs!"BORDER 8 7 1"]) : Res (List (Pt Int × Nat × Nat) × List (Nat × Nat × Nat))) = .ub := by
  decide +kernel

/-- A line that would go from a vertex of a face to a vertex of another one is not reported: its next vertex is one the surface does not have. -/
theorem other_face_not_reported : (loadCorners (twoFaces [cs!"BORDER 7 4 2"]) : Res (List (Pt Int × Nat × Nat) × List (Nat × Nat × Nat))) =
    .ok ([], [(1, 0, 4294967294)]) := by decide +kernel

/-- The property one would want of the records of corners and of line starts: they name vertices of surfaces, or the file is rejected. -/
def RecordsChecked : Prop := ∀ (f : File), (∃ (L : Ml.Loaded Int), loadMl f = .ok L ∧ ∃ (records : List (Pt Int × Nat × Nat)) (starts : List (Nat × Nat × Nat)),
  loadCorners f = .ok (records, starts) ∧
    (∀ r ∈ records, ∃ F ∈ L.meshes, F.1 = r.2.1 ∧ r.2.2 < F.2.1.length) ∧ ∀ r ∈ starts, ∃ F ∈ L.meshes, F.1 = r.1 ∧ r.2.1 < F.2.1.length ∧ r.2.2 < F.2.1.length) ∨
  (loadMl f : Res (Ml.Loaded Int)) = .throw ∨ (loadCorners f : Res (List (Pt Int × Nat × Nat) × List (Nat × Nat × Nat))) = .throw

theorem records_not_checked : ¬RecordsChecked := by
  intro h
  have h1 : (loadMl (twoFaces [cs!"BSTONE 7"]) : Res (Ml.Loaded Int)) ≠ .throw := by
    have : (match (loadMl (twoFaces [cs!"BSTONE 7"]) : Res (Ml.Loaded Int)) with
      | .ok _ => true
      | _ => false) = true := by decide +kernel
    intro e
    rw [e] at this
    cases this
  rcases h (twoFaces [cs!"BSTONE 7"]) with ⟨L, _, records, starts, hc, _⟩ | hc | hc
  · rw [stone_not_reported] at hc; cases hc
  · exact h1 hc
  · rw [stone_not_reported] at hc; cases hc

/-- Merging equal points only, as with the distance of a model with no thickness in one direction (`compute_epsilon`, `ml_input.cpp` lines 154-162). -/
def mergeEqual {P : Type} [DecidableEq P] : Merge P := fun ps => (ps, ps.map fun p => ps.idxOf p)

theorem mergeEqual_merges {P : Type} [DecidableEq P] : Merges (fun p q : P => p = q) mergeEqual where
  length := by intro ps; simp [mergeEqual]
  kept := by
    intro ps i p k hp hk
    have hk' : (ps.map fun p => ps.idxOf p)[i]? = some k := hk
    rw [List.getElem?_map, hp] at hk'
    have e : ps.idxOf p = k := Option.some.inj hk'
    have hm : p ∈ ps := List.mem_of_getElem? hp
    refine ⟨p, ?_, rfl⟩
    show ps[k]? = some p
    rw [← e]
    rw [List.getElem?_eq_getElem (List.idxOf_lt_length_iff.2 hm), List.getElem_idxOf]
  same := by
    intro ps i j p hi hj
    show (ps.map fun p => ps.idxOf p)[i]? = (ps.map fun p => ps.idxOf p)[j]?
    rw [List.getElem?_map, List.getElem?_map, hi, hj]

example : cornerAt (cornersMade mergeEqual [((5 : Nat), 0, 1), (7, 0, 2), (5, 1, 0)]).2 1 0 = some 0 ∧
    cornerAt (cornersMade mergeEqual [((5 : Nat), 0, 1), (7, 0, 2), (5, 1, 0)]).2 0 1 = some 0 ∧
    cornerAt (cornersMade mergeEqual [((5 : Nat), 0, 1), (7, 0, 2), (5, 1, 0)]).2 0 0 = none := by decide

end Verif.Props.MlCorners
