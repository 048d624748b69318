import Verif.Lemmas.GocadVSet

/-!
# VSet: save/load, several objects, properties (C03, C07)
-/

namespace Verif.Props.VSet

open Verif Verif.Gocad Verif.GocadMesh

variable {D : Type} [Num D]

/-- Loading a `.vs` file always terminates, whatever the file. -/
theorem loadVS_terminates (f : File) : (loadVS f : Res (Loaded Empty D)) ≠ .diverge :=
  loadVSLoop_terminates _ _ _ (by omega)

/-- Save then load, everything at once, for a point set that is not empty. -/
theorem load_save [LawfulNum D] {m : Mesh Empty D} (g : GoodVSet m) (hne : m.points ≠ [])
    (hd : ((written m.attrs).map Attr.name).Nodup) :
    loadVS (saveVS m) = .ok {
      name := m.name,
      points := m.points.map Pt.round,
      cells := [],
      store := (written m.attrs).map fun a => (a.name, loadedCol m.points.length a) } := by
  unfold loadVS
  obtain ⟨k, hk⟩ : ∃ k, (saveVS m).length = k + 1 :=
    ⟨(saveVS m).length - 1, by have := length_textVS_pos 0 m; rw [← saveVS_eq] at this; omega⟩
  have h := loadVSLoop_text (n := k + 1) (m := ({} : Loaded Empty D)) g hne (base := 0) (by have := g.size; omega) []
  rw [List.append_nil, ← saveVS_eq] at h
  rw [hk, h, buildPointSet_first hd, Res.ok_bind, loadVSLoop_nil]

/-- What C03 asks of a point set. -/
def Kept (m : Mesh Empty D) : Prop :=
  ∃ l : Loaded Empty D, loadVS (saveVS m) = .ok l ∧ l.name = m.name ∧ l.points = m.points.map Pt.round ∧
    l.store.map Prod.fst = (written m.attrs).map Attr.name ∧ (∀ x ∈ l.store, ∃ a ∈ m.attrs, IsProperty a ∧ a.name = x.1) ∧
    ∀ a ∈ m.attrs, IsProperty a → ∃ c, l.store.lookup a.name = some c ∧ c.vals.length = m.points.length ∧
      ∀ v, v < m.points.length → c.vals[v]? = some [Num.round (Num.castF (a.val v))]

/-- **C03, partial**: every point set with at least one point.  The full statement drops `m.points ≠ []`; it is refuted below. -/
theorem roundtrip_partial [LawfulNum D] {m : Mesh Empty D} (g : GoodVSet m) (hne : m.points ≠ [])
    (hd : ((written m.attrs).map Attr.name).Nodup) : Kept m := by
  refine ⟨_, load_save g hne hd, rfl, rfl, by simp [Function.comp_def], ?_, ?_⟩
  · intro x hx
    obtain ⟨a, ha, rfl⟩ := List.mem_map.1 hx
    exact ⟨a, (mem_written.1 ha).1, (mem_written.1 ha).2, rfl⟩
  intro a ha hp
  refine ⟨loadedCol m.points.length a, lookup_map_name hd (mem_written.2 ⟨ha, hp⟩), by simp [loadedCol], ?_⟩
  intro v hv
  simp [loadedCol, hv]

/-- The file written for an empty point set cannot be loaded: the reader looks for a vertex line and throws. -/
theorem empty_throws [LawfulNum D] {m : Mesh Empty D} (g : GoodVSet m) (he : m.points = []) :
    (loadVS (saveVS m) : Res (Loaded Empty D)) = .throw := by
  unfold loadVS
  rw [saveVS_eq, loadVSLoop]
  have h := readVSet_head (base := 0) g []
  rw [List.append_nil] at h
  rw [h, he]
  unfold readVSetVertices
  rw [gotoKeywords_skip (fun l hl => classLines_vrtx hl)]
  rfl

/-- **C03 is false of the code** for the empty point set. -/
theorem empty_not_kept : ¬ ∀ m : Mesh Empty Int, GoodVSet m → ((written m.attrs).map Attr.name).Nodup → Kept m := by
  intro h
  have g : GoodVSet ({ points := [], cells := [] } : Mesh Empty Int) := ⟨by simp, by unfold GoodNames; decide, by decide⟩
  obtain ⟨l, hl, _⟩ := h _ g (by decide)
  rw [empty_throws g rfl] at hl
  exact absurd hl (by simp)

/-- When an empty point set is followed by another one, it takes over the vertices of the latter, which disappears as an object of
its own: here its name is lost. -/
theorem empty_steals : loadVS (saveVS ({ name := some cs!"a", points := [], cells := [] } : Mesh Empty Int) ++
      saveVS ({ name := some cs!"b", points := [⟨1, 2, 3⟩], cells := [] } : Mesh Empty Int)) =
    .ok ({ name := some cs!"a", points := [⟨1, 2, 3⟩] } : Loaded Empty Int) := by
  decide +kernel

/-- A point set for the examples. -/
def sample : Mesh Empty Int where
  name := some cs!"my points"
  points := [⟨0, 0, 0⟩, ⟨1, 0, -5⟩, ⟨0, 1, 7⟩]
  cells := []
  attrs := [⟨cs!"my prop", true, fun v => 10 + v⟩, ⟨cs!"points", true, fun _ => 0⟩, ⟨cs!"q", true, fun v => 3 * v⟩]

theorem good_sample : GoodVSet sample := ⟨by decide, by unfold GoodNames; decide, by decide⟩

example : GoodVSet sample ∧ sample.points ≠ [] ∧ ((written sample.attrs).map Attr.name).Nodup :=
  ⟨good_sample, by decide, by decide⟩

/-! ## Several objects -/

/-- A file: objects one after the other, each with its own numbering base. -/
def fileOf (objs : List (Nat × Mesh Empty D)) : File := objs.flatMap fun o => textVS o.1 o.2

theorem fileOf_length (objs : List (Nat × Mesh Empty D)) : objs.length ≤ (fileOf objs).length := by
  induction objs with
  | nil => simp
  | cons o os ih =>
    have := length_textVS_pos o.1 o.2
    simp only [fileOf, List.flatMap_cons, List.length_append, List.length_cons] at *
    omega

theorem union_loop [LawfulNum D] (objs : List (Nat × Mesh Empty D)) (m : Loaded Empty D) (n : Nat) (hn : objs.length < n)
    (hg : ∀ o ∈ objs, GoodVSet o.2 ∧ o.2.points ≠ [] ∧ o.1 + o.2.points.length ≤ W)
    (hs : StoreOk m.points.length m.store) :
    ∃ l, loadVSLoop n m (fileOf objs) = .ok l ∧
      l.points = m.points ++ objs.flatMap fun o => o.2.points.map Pt.round := by
  induction objs generalizing m n with
  | nil =>
    obtain ⟨k, rfl⟩ : ∃ k, n = k + 1 := ⟨n - 1, by simp at hn; omega⟩
    exact ⟨m, rfl, by simp⟩
  | cons o os ih =>
    obtain ⟨k, rfl⟩ : ∃ k, n = k + 1 := ⟨n - 1, by simp at hn; omega⟩
    obtain ⟨g, hne, hb⟩ := hg o (by simp)
    obtain ⟨st, h1, h2⟩ := buildPointSet_any (base := o.1) (m := m) (s := o.2) hs
    have e : fileOf (o :: os) = textVS o.1 o.2 ++ fileOf os := by simp [fileOf]
    rw [e, loadVSLoop_text g hne hb, h1, Res.ok_bind]
    obtain ⟨l, hl, hp⟩ := ih ⟨o.2.name <|> m.name, m.points ++ o.2.points.map Pt.round, [], st⟩ k (by simp at hn; omega)
      (fun o' ho' => hg o' (by simp [ho'])) (by simpa using h2)
    exact ⟨l, hl, by rw [hp]; simp⟩

/-- **C52.** A file of several non-empty point sets loads as all their points in file order, whatever the numbering of each. -/
theorem union_of_objects [LawfulNum D] (objs : List (Nat × Mesh Empty D))
    (hg : ∀ o ∈ objs, GoodVSet o.2 ∧ o.2.points ≠ [] ∧ o.1 + o.2.points.length ≤ W) :
    ∃ l, loadVS (fileOf objs) = .ok l ∧ l.points = objs.flatMap fun o => o.2.points.map Pt.round := by
  obtain ⟨l, h, hp⟩ := union_loop objs {} ((fileOf objs).length + 1)
    (by have := fileOf_length objs; omega) hg (by intro p hp; simp at hp)
  exact ⟨l, h, by simpa using hp⟩

example : ∃ objs : List (Nat × Mesh Empty Int), objs.length = 2 ∧
    ∀ o ∈ objs, GoodVSet o.2 ∧ o.2.points ≠ [] ∧ o.1 + o.2.points.length ≤ W := by
  refine ⟨[(1, sample), (7, sample)], rfl, ?_⟩
  intro o ho
  simp only [List.mem_cons, List.not_mem_nil, or_false] at ho
  rcases ho with rfl | rfl <;> exact ⟨good_sample, by decide, by decide⟩

/-- **C07 is false of the `.vs` reader too**: the value of the second object replaces that of the first. -/
theorem properties_overwritten :
    loadVS (saveVS ({ points := [⟨0, 0, 0⟩], cells := [], attrs := [⟨cs!"p", true, fun _ => 1⟩] } : Mesh Empty Int) ++
      saveVS ({ points := [⟨5, 5, 5⟩], cells := [], attrs := [⟨cs!"p", true, fun _ => 2⟩] } : Mesh Empty Int)) =
    .ok ({ points := [⟨0, 0, 0⟩, ⟨5, 5, 5⟩], store := [(cs!"p", ⟨1, -99999, [[2], [-99999]]⟩)] } : Loaded Empty Int) := by
  decide +kernel

end Verif.Props.VSet
