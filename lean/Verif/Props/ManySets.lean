import Verif.Props.ManyProps
import Verif.Props.VSet

/-!
# C07: the properties of point sets of several objects, exactly
-/

set_option linter.unusedSectionVars false

namespace Verif.Props.ManySets

open Verif Verif.Gocad Verif.GocadMesh Verif.Props.ManyProps

variable {D : Type} [Num D]

/-- The properties of point sets, one after the other. -/
def stored (ms : List (Mesh Empty D)) (val : Values D) : Values D := ms.foldl (fun val m => (written m.attrs).foldl (put m.points.length) val) val

/-- Points of all objects, in order. -/
def allPoints (ms : List (Mesh Empty D)) : List (Pt D) := ms.flatMap fun m => m.points.map Pt.round

/-- What C07 asks of point sets: at each vertex of each object, the value written on its own line. -/
def PropertiesKept (ms : List (Mesh Empty D)) : Prop :=
  ∃ l, loadVS (ms.flatMap saveVS) = .ok l ∧
    ∀ (i : Nat) (m : Mesh Empty D), ms[i]? = some m → ∀ a ∈ written m.attrs, ∀ v, v < m.points.length →
      ∃ c, l.store.lookup a.name = some c ∧ c.vals[(allPoints (ms.take i)).length + v]? = some [Num.round (Num.castF (a.val v))]

theorem build_one {m : Loaded Empty D} {s : Mesh Empty D} {base : Nat} {val : Values D} (hr : Rep m.points.length m.store val) (hs : Short m.points.length val) :
    ∃ st, buildPointSet m (vsetOf base s) = .ok ⟨s.name <|> m.name, m.points ++ s.points.map Pt.round, [], st⟩ ∧
      Rep (m.points.length + s.points.length) st ((written s.attrs).foldl (put s.points.length) val) ∧
      Short (m.points.length + s.points.length) ((written s.attrs).foldl (put s.points.length) val) := by
  obtain ⟨st, h1, h2, h3⟩ := create_all (nb := m.points.length + s.points.length) (k := s.points.length) (by omega) (written s.attrs)
    (rep_grow (nb' := m.points.length + s.points.length) (by omega) hr hs) (short_mono (by omega) hs)
  refine ⟨st, ?_, h2, h3⟩
  unfold buildPointSet
  simp only [vsetOf, List.length_map]
  rw [readBackProps_names, readBackProps_esizes, readBackProps_noData, List.map_map, List.map_map]
  have e1 : ((fun _ : Str => 1) ∘ (Attr.name : Attr D → Str)) = fun _ => 1 := rfl
  have e2 : ((fun _ : Str => (Num.round Num.noData : D)) ∘ (Attr.name : Attr D → Str)) = fun _ => Num.round Num.noData := rfl
  rw [e1, e2, List.length_append, List.length_map, h1, Res.ok_bind]
  rfl

theorem loop [LawfulNum D] (ms : List (Mesh Empty D)) (m : Loaded Empty D) (n : Nat) (hn : ms.length < n) (hg : ∀ o ∈ ms, GoodVSet o ∧ o.points ≠ [])
    {val : Values D} (hr : Rep m.points.length m.store val) (hs : Short m.points.length val) :
    ∃ l, loadVSLoop n m (ms.flatMap saveVS) = .ok l ∧ Rep (m.points.length + (allPoints ms).length) l.store (stored ms val) := by
  induction ms generalizing m n val with
  | nil =>
    obtain ⟨k, rfl⟩ : ∃ k, n = k + 1 := ⟨n - 1, by simp at hn; omega⟩
    exact ⟨m, rfl, by simpa [allPoints, stored] using hr⟩
  | cons o os ih =>
    obtain ⟨k, rfl⟩ : ∃ k, n = k + 1 := ⟨n - 1, by simp at hn; omega⟩
    obtain ⟨g, hne⟩ := hg o (by simp)
    obtain ⟨st, h1, h2, h3⟩ := build_one (s := o) (base := 0) hr hs
    rw [List.flatMap_cons, saveVS_eq, loadVSLoop_text g hne (by have := g.size; omega), h1, Res.ok_bind]
    obtain ⟨l, hl, hst⟩ := ih ⟨o.name <|> m.name, m.points ++ o.points.map Pt.round, [], st⟩ k
      (by simp at hn; omega) (fun o' ho' => hg o' (by simp [ho'])) (by simpa using h2) (by simpa using h3)
    refine ⟨l, hl, ?_⟩
    simp only [List.length_append, List.length_map] at hst
    rw [Nat.add_assoc] at hst
    simpa [allPoints, stored] using hst

/-- **What is loaded**: as for surfaces, the properties of each point set in turn are given to the first vertices of the whole set. -/
theorem loaded_values [LawfulNum D] (ms : List (Mesh Empty D)) (hg : ∀ m ∈ ms, GoodVSet m ∧ m.points ≠ []) :
    ∃ l, loadVS (ms.flatMap saveVS) = .ok l ∧ ∀ n, l.store.lookup n =
      (stored ms (fun _ => none) n).map fun w => ⟨1, Num.round Num.noData, (List.range (allPoints ms).length).map w⟩ := by
  have hlen : ms.length < (ms.flatMap saveVS).length + 1 := by
    have h2 := VSet.fileOf_length (ms.map fun m => (0, m))
    simp only [VSet.fileOf, List.flatMap_map, List.length_map] at h2
    have e : (List.flatMap (fun x : Mesh Empty D => textVS 0 x) ms) = List.flatMap saveVS ms := by
      congr 1; funext x; exact (saveVS_eq x).symm
    rw [e] at h2
    omega
  obtain ⟨l, hl, h⟩ := loop ms {} _ hlen hg (val := fun _ => none) (by intro n; rfl) (by intro n w hw; cases hw)
  exact ⟨l, hl, fun n => by simpa using h n⟩

/-- **C07, exactly, for point sets**. -/
theorem properties_kept_iff [LawfulNum D] (ms : List (Mesh Empty D)) (hg : ∀ m ∈ ms, GoodVSet m ∧ m.points ≠ []) :
    PropertiesKept ms ↔ ∀ (i : Nat) (m : Mesh Empty D), ms[i]? = some m → ∀ a ∈ written m.attrs, ∀ v, v < m.points.length →
      ∃ w, stored ms (fun _ => none) a.name = some w ∧ w ((allPoints (ms.take i)).length + v) = [Num.round (Num.castF (a.val v))] := by
  obtain ⟨l, hl, h⟩ := loaded_values ms hg
  have hlt : ∀ (i : Nat) (m : Mesh Empty D), ms[i]? = some m → ∀ v, v < m.points.length → (allPoints (ms.take i)).length + v < (allPoints ms).length := by
    intro i m hi v hv
    obtain ⟨hi', rfl⟩ := List.getElem?_eq_some_iff.1 hi
    have e : allPoints ms = allPoints (ms.take i) ++ (ms[i].points.map Pt.round ++ allPoints (ms.drop (i + 1))) := by
      have e : ms = ms.take i ++ ms[i] :: ms.drop (i + 1) := by rw [← List.drop_eq_getElem_cons hi', List.take_append_drop]
      conv => lhs; rw [e]
      unfold allPoints
      rw [List.flatMap_append, List.flatMap_cons]
    rw [e, List.length_append, List.length_append, List.length_map]
    omega
  constructor
  · rintro ⟨l', hl', hk⟩ i m hi a ha v hv
    rw [hl] at hl'
    cases hl'
    obtain ⟨c, h1, h2⟩ := hk i m hi a ha v hv
    rw [h] at h1
    obtain ⟨w, hw, rfl⟩ := Option.map_eq_some_iff.1 h1
    refine ⟨w, hw, ?_⟩
    simpa [hlt i m hi v hv] using h2
  · intro hk
    refine ⟨l, hl, fun i m hi a ha v hv => ?_⟩
    obtain ⟨w, hw, e⟩ := hk i m hi a ha v hv
    refine ⟨_, by rw [h, hw]; rfl, ?_⟩
    simp [hlt i m hi v hv, e]

/-- Not vacuous: one object with properties followed by one without; the condition holds. -/
example : (∀ m ∈ [VSet.sample, { VSet.sample with attrs := [] }], GoodVSet m ∧ m.points ≠ []) ∧
    ((stored [VSet.sample, { VSet.sample with attrs := [] }] fun _ => none) cs!"q").map (fun w => (w 0, w 1, w 2)) = some ([0], [3], [6]) := by
  refine ⟨?_, by decide +kernel⟩
  intro m hm
  simp only [List.mem_cons, List.not_mem_nil, or_false] at hm
  rcases hm with rfl | rfl
  · exact ⟨VSet.good_sample, by decide⟩
  · exact ⟨⟨by decide, by unfold GoodNames; decide, by decide⟩, by decide⟩

end Verif.Props.ManySets
