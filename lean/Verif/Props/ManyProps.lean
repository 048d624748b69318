import Mathlib.Data.List.Induction
import Verif.Props.TSurf
import Verif.Props.GocadVectors

/-!
# C07: the properties of surfaces of several objects, exactly
-/

set_option linter.unusedSectionVars false

namespace Verif.Props.ManyProps

open Verif Verif.Gocad Verif.GocadMesh Verif.Props.TSurf

variable {D : Type} [Num D]

/-! ## Specification -/

/-- The value of a vertex without value. -/
def noValue (D : Type) [Num D] : List D := [Num.round Num.noData]

/-- The values of each name at each vertex of the whole surface, if there is a property of that name. -/
abbrev Values (D : Type) := Str → Option (Nat → List D)

/-- The property `a` of an object of `k` vertices is given to the first `k` vertices of the whole surface. -/
def put (k : Nat) (val : Values D) (a : Attr D) : Values D := fun n =>
  if n = a.name then some fun v => if v < k then [Num.round (Num.castF (a.val v))] else ((val n).map (· v)).getD (noValue D) else val n

/-- The properties of objects, one after the other. -/
def stored (ms : List (Mesh Tri D)) (val : Values D) : Values D := ms.foldl (fun val m => (written m.attrs).foldl (put m.points.length) val) val

/-! ## Columns -/

/-- The columns of a mesh of `nb` vertices hold these values. -/
def Rep (nb : Nat) (s : Store D) (val : Values D) : Prop := ∀ n, s.lookup n = (val n).map fun w => ⟨1, Num.round Num.noData, (List.range nb).map w⟩

/-- There are no values after the vertices. -/
def Short (nb : Nat) (val : Values D) : Prop := ∀ n w, val n = some w → ∀ v, nb ≤ v → w v = noValue D

theorem lookup_grow (nb : Nat) (s : Store D) (n : Str) : (growStore nb s).lookup n =
    (s.lookup n).map fun c => { c with vals := c.vals ++ List.replicate (nb - c.vals.length) (List.replicate c.esize c.dflt) } := by
  induction s with
  | nil => rfl
  | cons p s ih =>
    obtain ⟨k, c⟩ := p
    simp only [growStore, List.map_cons] at ih ⊢
    rw [List.lookup_cons, List.lookup_cons]
    cases n == k with
    | true => rfl
    | false => exact ih

theorem rep_grow {nb nb' : Nat} (h : nb ≤ nb') {s : Store D} {val : Values D} (hr : Rep nb s val) (hs : Short nb val) : Rep nb' (growStore nb' s) val := by
  intro n
  rw [lookup_grow, hr n]
  cases hv : val n with
  | none => rfl
  | some w =>
    simp only [Option.map_some, Option.some.injEq, Column.mk.injEq, true_and, List.length_map, List.length_range]
    apply List.ext_getElem?
    intro i
    rcases Nat.lt_or_ge i nb with hi | hi
    · rw [List.getElem?_append_left (by simpa using hi)]
      simp [hi, Nat.lt_of_lt_of_le hi h]
    · rw [List.getElem?_append_right (by simpa using hi)]
      have := hs n w hv i hi
      by_cases hi' : i < nb'
      · simp [List.getElem?_replicate, hi', this, noValue]
        omega
      · simp [List.getElem?_replicate, hi']
        omega

theorem short_mono {nb nb' : Nat} (h : nb ≤ nb') {val : Values D} (hs : Short nb val) : Short nb' val := fun n w e v hv => hs n w e v (by omega)

theorem short_put {nb k : Nat} (hk : k ≤ nb) {val : Values D} (hs : Short nb val) (a : Attr D) : Short nb (put k val a) := by
  intro n w hw v hv
  unfold put at hw
  split at hw
  · cases hw
    have hvk : ¬ v < k := by omega
    simp only [if_neg hvk]
    cases e : val n with
    | none => rfl
    | some w => exact hs n w e v hv
  · exact hs n w hw v hv

theorem create_one {nb k : Nat} (hk : k ≤ nb) {s : Store D} {val : Values D} (hr : Rep nb s val) (a : Attr D) :
    ∃ r, createAttribute s a.name 1 (Num.round Num.noData) (colOf (List.range k) a) nb (List.range k) = .ok r ∧ Rep nb r (put k val a) := by
  have hc : findOrCreate s a.name 1 (Num.round Num.noData) nb =
      ⟨1, Num.round Num.noData, (List.range nb).map fun v => ((val a.name).map (· v)).getD (noValue D)⟩ := by
    unfold findOrCreate
    rw [hr a.name]
    cases val a.name with
    | none =>
      simp only [Option.map_none, Option.getD_none, Column.mk.injEq, true_and]
      apply List.ext_getElem?
      intro i
      by_cases hi : i < nb <;> simp [hi, noValue]
    | some w => simp
  have hm : Res.mapM' (itemsAt (colOf (List.range k) a) 1) (List.range k) = .ok ((colOf (List.range k) a).map fun v => [v]) := by
    have := mapM'_itemsAt_range (colOf (List.range k) a)
    rwa [colOf_length, List.length_range] at this
  unfold createAttribute
  simp only [hc]
  rw [hm, Res.ok_bind]
  unfold setFrom
  rw [if_pos (by simpa [colOf] using hk), Res.ok_bind]
  refine ⟨_, rfl, fun n => ?_⟩
  rw [GocadVectors.lookup_putColumn]
  unfold put
  by_cases hn : n = a.name
  · rw [if_pos hn, if_pos hn, hn]
    simp only [Option.map_some, Option.some.injEq, Column.mk.injEq, true_and]
    apply List.ext_getElem?
    intro i
    rcases Nat.lt_or_ge i k with hi | hi
    · rw [List.getElem?_append_left (by simpa [colOf] using hi)]
      have : i < nb := by omega
      simp [colOf, hi, this]
    · rw [List.getElem?_append_right (by simpa [colOf] using hi)]
      simp only [colOf, List.length_map, List.length_range, List.getElem?_drop]
      rw [Nat.add_sub_cancel' hi]
      by_cases hi' : i < nb
      · simp [hi', Nat.not_lt.2 hi]
      · simp [hi']
  · rw [if_neg hn, if_neg hn]
    exact hr n

theorem create_all {nb k : Nat} (hk : k ≤ nb) : ∀ (as : List (Attr D)) {s : Store D} {val : Values D}, Rep nb s val → Short nb val →
    ∃ r, createAttributes nb (List.range k) s (as.map Attr.name) (as.map fun _ => 1) (as.map fun _ => Num.round Num.noData) (as.map (colOf (List.range k))) = .ok r ∧
      Rep nb r (as.foldl (put k) val) ∧ Short nb (as.foldl (put k) val)
  | [], s, _, hr, hs => ⟨s, rfl, hr, hs⟩
  | a :: as, _, _, hr, hs => by
    obtain ⟨r, h1, h2⟩ := create_one hk hr a
    obtain ⟨r', h3, h4⟩ := create_all hk as h2 (short_put hk hs a)
    refine ⟨r', ?_, h4⟩
    simp only [List.map_cons, createAttributes]
    rw [h1, Res.ok_bind, h3]

theorem build_one {m : Loaded Tri D} {s : Mesh Tri D} {base : Nat} (g : GoodSurf s) (hW : m.points.length + s.points.length ≤ W) {val : Values D}
    (hr : Rep m.points.length m.store val) (hs : Short m.points.length val) :
    ∃ st, buildSurface m (tsurfOf base s) = .ok ⟨s.name <|> m.name, m.points ++ s.points.map Pt.round, m.cells ++ s.cells.map (moveTri m.points.length), st⟩ ∧
      Rep (m.points.length + s.points.length) st ((written s.attrs).foldl (put s.points.length) val) ∧
      Short (m.points.length + s.points.length) ((written s.attrs).foldl (put s.points.length) val) := by
  obtain ⟨st, h1, h2, h3⟩ := create_all (nb := m.points.length + s.points.length) (k := s.points.length) (by omega) (written s.attrs)
    (rep_grow (nb' := m.points.length + s.points.length) (by omega) hr hs) (short_mono (by omega) hs)
  refine ⟨st, ?_, h2, h3⟩
  unfold buildSurface
  simp only [tsurfOf, List.length_map]
  rw [buildSurface_tris g hW, Res.ok_bind, readBackProps_names, readBackProps_esizes, readBackProps_noData, List.map_map, List.map_map]
  have e1 : ((fun _ : Str => 1) ∘ (Attr.name : Attr D → Str)) = fun _ => 1 := rfl
  have e2 : ((fun _ : Str => (Num.round Num.noData : D)) ∘ (Attr.name : Attr D → Str)) = fun _ => Num.round Num.noData := rfl
  rw [e1, e2, List.length_append, List.length_map, h1, Res.ok_bind]
  rfl

theorem loop [LawfulNum D] (ms : List (Mesh Tri D)) (m : Loaded Tri D) (n : Nat) (hn : ms.length < n) (hg : ∀ o ∈ ms, GoodSurf o)
    (hW : m.points.length + (unionPoints ms).length ≤ W) {val : Values D} (hr : Rep m.points.length m.store val) (hs : Short m.points.length val) :
    ∃ l, loadTSLoop n m (ms.flatMap saveTS) = .ok l ∧ Rep (m.points.length + (unionPoints ms).length) l.store (stored ms val) := by
  induction ms generalizing m n val with
  | nil =>
    obtain ⟨k, rfl⟩ : ∃ k, n = k + 1 := ⟨n - 1, by simp at hn; omega⟩
    exact ⟨m, rfl, by simpa [unionPoints, stored] using hr⟩
  | cons o os ih =>
    obtain ⟨k, rfl⟩ : ∃ k, n = k + 1 := ⟨n - 1, by simp at hn; omega⟩
    have g := hg o (by simp)
    simp only [unionPoints, List.flatMap_cons, List.length_append, List.length_map] at hW
    obtain ⟨st, h1, h2, h3⟩ := build_one (base := 0) g (by omega) hr hs
    rw [List.flatMap_cons, saveTS_eq, loadTSLoop_text g (by have := g.size; omega), h1, Res.ok_bind]
    obtain ⟨l, hl, hst⟩ := ih ⟨o.name <|> m.name, m.points ++ o.points.map Pt.round, m.cells ++ o.cells.map (moveTri m.points.length), st⟩ k
      (by simp at hn; omega) (fun o' ho' => hg o' (by simp [ho'])) (by simp only [unionPoints, List.length_append, List.length_map]; omega)
      (by simpa using h2) (by simpa using h3)
    refine ⟨l, hl, ?_⟩
    simp only [List.length_append, List.length_map] at hst
    rw [Nat.add_assoc] at hst
    simpa [unionPoints, stored] using hst

/-- **What is loaded**: the properties of each object in turn are given to the first vertices of the whole surface, as many as the object has, over those that were there; the
other vertices of a property keep their values, or have no value. -/
theorem loaded_values [LawfulNum D] (ms : List (Mesh Tri D)) (hg : ∀ m ∈ ms, GoodSurf m) (hW : (unionPoints ms).length ≤ W) :
    ∃ l, loadTS (ms.flatMap saveTS) = .ok l ∧ ∀ n, l.store.lookup n =
      (stored ms (fun _ => none) n).map fun w => ⟨1, Num.round Num.noData, (List.range (unionPoints ms).length).map w⟩ := by
  have hlen : ms.length < (ms.flatMap saveTS).length + 1 := by
    have h2 := fileOf_length (ms.map fun m => (0, m))
    simp only [fileOf, List.flatMap_map, List.length_map] at h2
    have e : (List.flatMap (fun x : Mesh Tri D => textTS 0 x) ms) = List.flatMap saveTS ms := by
      congr 1; funext x; exact (saveTS_eq x).symm
    rw [e] at h2
    omega
  obtain ⟨l, hl, h⟩ := loop ms {} _ hlen hg (by simpa using hW) (val := fun _ => none) (by intro n; rfl) (by intro n w hw; cases hw)
  exact ⟨l, hl, fun n => by simpa using h n⟩

/-- **C07, exactly**: the vertices of the objects keep their own values exactly when the last values given to the places of these vertices are theirs. -/
theorem properties_kept_iff [LawfulNum D] (ms : List (Mesh Tri D)) (hg : ∀ m ∈ ms, GoodSurf m) (hW : (unionPoints ms).length ≤ W) :
    PropertiesKept ms ↔ ∀ i m, ms[i]? = some m → ∀ a ∈ written m.attrs, ∀ v, v < m.points.length →
      ∃ w, stored ms (fun _ => none) a.name = some w ∧ w (pointsBefore ms i + v) = [Num.round (Num.castF (a.val v))] := by
  obtain ⟨l, hl, h⟩ := loaded_values ms hg hW
  have hlt : ∀ i m, ms[i]? = some m → ∀ v, v < m.points.length → pointsBefore ms i + v < (unionPoints ms).length := by
    intro i m hi v hv
    obtain ⟨hi', rfl⟩ := List.getElem?_eq_some_iff.1 hi
    have e : unionPoints ms = unionPoints (ms.take i) ++ (ms[i].points.map Pt.round ++ unionPoints (ms.drop (i + 1))) := by
      have e : ms = ms.take i ++ ms[i] :: ms.drop (i + 1) := by rw [← List.drop_eq_getElem_cons hi', List.take_append_drop]
      conv => lhs; rw [e]
      unfold unionPoints
      rw [List.flatMap_append, List.flatMap_cons]
    rw [e, List.length_append, List.length_append, List.length_map]
    unfold pointsBefore
    omega
  constructor
  · rintro ⟨l', hl', hk⟩ i m hi a ha v hv
    rw [hl] at hl'
    cases hl'
    obtain ⟨c, h1, h2⟩ := hk i m hi a ha v hv
    rw [h] at h1
    obtain ⟨w, hw, rfl⟩ := Option.map_eq_some_iff.1 h1
    refine ⟨w, hw, ?_⟩
    simpa [hlt i m hi v hv] using h2
  · intro hk
    refine ⟨l, hl, fun i m hi a ha v hv => ?_⟩
    obtain ⟨w, hw, e⟩ := hk i m hi a ha v hv
    refine ⟨_, by rw [h, hw]; rfl, ?_⟩
    simp [hlt i m hi v hv, e]

/-- The last object with properties overwrites: its values are at the first vertices of the surface, whatever the objects before it. -/
theorem last_object_first [LawfulNum D] (ms : List (Mesh Tri D)) (m : Mesh Tri D) (hg : ∀ o ∈ ms ++ [m], GoodSurf o) (hW : (unionPoints (ms ++ [m])).length ≤ W)
    (hd : ((written m.attrs).map Attr.name).Nodup) {a : Attr D} (ha : a ∈ written m.attrs) {v : Nat} (hv : v < m.points.length) :
    ∃ l c, loadTS ((ms ++ [m]).flatMap saveTS) = .ok l ∧ l.store.lookup a.name = some c ∧ c.vals[v]? = some [Num.round (Num.castF (a.val v))] := by
  obtain ⟨l, hl, h⟩ := loaded_values (ms ++ [m]) hg hW
  have key : ∀ (as : List (Attr D)) (val : Values D), (as.map Attr.name).Nodup → a ∈ as →
      ∃ w, as.foldl (put m.points.length) val a.name = some w ∧ w v = [Num.round (Num.castF (a.val v))] := by
    intro as
    induction as using List.reverseRecOn with
    | nil => intro _ _ h; cases h
    | append_singleton as b ih =>
      intro val hn hm
      rw [List.foldl_append]
      simp only [List.foldl_cons, List.foldl_nil]
      by_cases e : a.name = b.name
      · have : a = b := by
          rcases List.mem_append.1 hm with hm | hm
          · rw [List.map_append] at hn
            exact absurd e (List.nodup_append.1 hn |>.2.2 _ (List.mem_map.2 ⟨a, hm, rfl⟩) _ (by simp))
          · simpa using hm
        subst this
        exact ⟨_, if_pos rfl, if_pos hv⟩
      · have hm' : a ∈ as := by
          rcases List.mem_append.1 hm with hm | hm
          · exact hm
          · exact absurd (by rw [List.mem_singleton.1 hm]) e
        obtain ⟨w, h1, h2⟩ := ih val (by rw [List.map_append] at hn; exact (List.nodup_append.1 hn).1) hm'
        exact ⟨w, (if_neg e).trans h1, h2⟩
  obtain ⟨w, h1, h2⟩ := key (written m.attrs) (stored ms fun _ => none) hd ha
  have h1' : stored (ms ++ [m]) (fun _ => none) a.name = some w := by
    unfold stored at h1 ⊢
    rw [List.foldl_append]
    exact h1
  refine ⟨l, _, hl, by rw [h, h1']; rfl, ?_⟩
  have : v < (unionPoints (ms ++ [m])).length := by simp [unionPoints]; omega
  simp [this, h2]

/-- Test: in `TSurf.clash` the second object has overwritten the value of the first. -/
example : ((stored clash fun _ => none) cs!"p").map (fun w => (w 0, w 1)) = some ([2], [-99999]) := by decide +kernel

/-- Not vacuous: its objects are good. -/
example : (∀ m ∈ clash, GoodSurf m) ∧ (unionPoints clash).length ≤ W := by
  refine ⟨?_, by decide⟩
  intro m hm
  simp only [clash, List.mem_cons, List.not_mem_nil, or_false] at hm
  rcases hm with rfl | rfl
  · exact ⟨by decide, by unfold GoodNames; decide, by decide, by decide⟩
  · exact ⟨by decide, by unfold GoodNames; decide, by decide, by decide⟩

end Verif.Props.ManyProps
