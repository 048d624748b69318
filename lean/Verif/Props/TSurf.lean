import Verif.Lemmas.GocadBuild

/-!
# TSurf: save/load, several objects, properties (C01, C02, C06, C07)
-/

namespace Verif.Props.TSurf

open Verif Verif.Gocad Verif.GocadMesh

variable {D : Type} [Num D]

/-- Loading a `.ts` file always terminates, whatever the file (the fuel of `loadTS` is never exhausted). -/
theorem loadTS_terminates (f : File) : (loadTS f : Res (Loaded Tri D)) ≠ .diverge :=
  loadTSLoop_terminates _ _ _ (by omega)

/-- Save then load, everything at once: name, points up to formatting, triangles, one column per written property. -/
theorem load_save [LawfulNum D] {m : Mesh Tri D} (g : GoodSurf m) (hd : ((written m.attrs).map Attr.name).Nodup) :
    loadTS (saveTS m) = .ok {
      name := m.name,
      points := m.points.map Pt.round,
      cells := m.cells,
      store := (written m.attrs).map fun a => (a.name, loadedCol m.points.length a) } := by
  unfold loadTS
  obtain ⟨k, hk⟩ : ∃ k, (saveTS m).length = k + 1 :=
    ⟨(saveTS m).length - 1, by have := length_textTS_pos 0 m; rw [← saveTS_eq] at this; omega⟩
  have h := loadTSLoop_text (n := k + 1) (m := ({} : Loaded Tri D)) g (base := 0) (by have := g.size; omega) []
  rw [List.append_nil, ← saveTS_eq] at h
  rw [hk, h, buildSurface_first g hd, Res.ok_bind, loadTSLoop_nil]

/-- **C01.** Saving a surface and loading it gives back name, number of points, every point up to formatting, and every triangle
with the same vertex indices in the same order. -/
theorem roundtrip_geometry [LawfulNum D] {m : Mesh Tri D} (g : GoodSurf m)
    (hd : ((written m.attrs).map Attr.name).Nodup) :
    ∃ l : Loaded Tri D, loadTS (saveTS m) = .ok l ∧ l.name = m.name ∧ l.points.length = m.points.length ∧
      (∀ (v : Nat) (p : Pt D), m.points[v]? = some p → l.points[v]? = some p.round) ∧ l.cells = m.cells := by
  refine ⟨_, load_save g hd, rfl, by simp, ?_, rfl⟩
  intro v p h
  simp [h]

/-- **C02.** Every property is there after loading, with its name, and at each vertex the saved value up to formatting;
nothing else is. -/
theorem roundtrip_properties [LawfulNum D] {m : Mesh Tri D} (g : GoodSurf m)
    (hd : ((written m.attrs).map Attr.name).Nodup) :
    ∃ l : Loaded Tri D, loadTS (saveTS m) = .ok l ∧ l.store.map Prod.fst = (written m.attrs).map Attr.name ∧
      (∀ x ∈ l.store, ∃ a ∈ m.attrs, IsProperty a ∧ a.name = x.1) ∧
      ∀ a ∈ m.attrs, IsProperty a → ∃ c, l.store.lookup a.name = some c ∧ c.vals.length = m.points.length ∧
        ∀ v, v < m.points.length → c.vals[v]? = some [Num.round (Num.castF (a.val v))] := by
  refine ⟨_, load_save g hd, by simp [Function.comp_def], ?_, ?_⟩
  · intro x hx
    obtain ⟨a, ha, rfl⟩ := List.mem_map.1 hx
    exact ⟨a, (mem_written.1 ha).1, (mem_written.1 ha).2, rfl⟩
  intro a ha hp
  refine ⟨loadedCol m.points.length a, lookup_map_name hd (mem_written.2 ⟨ha, hp⟩), by simp [loadedCol], ?_⟩
  intro v hv
  simp [loadedCol, hv]

/-- A triangulated surface with a property whose name has a blank, for the examples. -/
def sample : Mesh Tri Int where
  name := some cs!"top horizon"
  points := [⟨0, 0, 0⟩, ⟨1, 0, -5⟩, ⟨0, 1, 7⟩, ⟨1, 1, 2⟩]
  cells := [(0, 1, 2), (2, 1, 3)]
  attrs := [⟨cs!"my prop", true, fun v => 10 + v⟩, ⟨cs!"points", true, fun _ => 0⟩, ⟨cs!"q", true, fun v => 3 * v⟩]

theorem good_sample : GoodSurf sample where
  name := by decide
  names := by unfold GoodNames; decide
  tris := by decide
  size := by decide

example : GoodSurf sample ∧ ((written sample.attrs).map Attr.name).Nodup := ⟨good_sample, by decide⟩

/-! ## Several objects -/

/-- Specification of the disjoint union: triangles of each object, shifted by the number of points before it. -/
def unionCells : Nat → List (Mesh Tri D) → List Tri
  | _, [] => []
  | off, m :: ms => m.cells.map (fun t => (off + t.1, off + t.2.1, off + t.2.2)) ++ unionCells (off + m.points.length) ms

/-- Points of all objects, in order. -/
def unionPoints (ms : List (Mesh Tri D)) : List (Pt D) := ms.flatMap fun m => m.points.map Pt.round

/-- The name that remains: that of the last object that has one. -/
def unionName : Option Str → List (Mesh Tri D) → Option Str
  | n, [] => n
  | n, m :: ms => unionName (m.name <|> n) ms

/-- A file: objects one after the other, each with its own numbering base. -/
def fileOf (objs : List (Nat × Mesh Tri D)) : File := objs.flatMap fun o => textTS o.1 o.2

theorem fileOf_length (objs : List (Nat × Mesh Tri D)) : objs.length ≤ (fileOf objs).length := by
  induction objs with
  | nil => simp
  | cons o os ih =>
    have := length_textTS_pos o.1 o.2
    simp only [fileOf, List.flatMap_cons, List.length_append, List.length_cons] at *
    omega

theorem union_loop [LawfulNum D] (objs : List (Nat × Mesh Tri D)) (m : Loaded Tri D) (n : Nat) (hn : objs.length < n)
    (hg : ∀ o ∈ objs, GoodSurf o.2 ∧ o.1 + o.2.points.length ≤ W)
    (hW : m.points.length + (unionPoints (objs.map Prod.snd)).length ≤ W) (hs : StoreOk m.points.length m.store) :
    ∃ l, loadTSLoop n m (fileOf objs) = .ok l ∧ l.points = m.points ++ unionPoints (objs.map Prod.snd) ∧
      l.cells = m.cells ++ unionCells m.points.length (objs.map Prod.snd) ∧
      l.name = unionName m.name (objs.map Prod.snd) := by
  induction objs generalizing m n with
  | nil =>
    obtain ⟨k, rfl⟩ : ∃ k, n = k + 1 := ⟨n - 1, by simp at hn; omega⟩
    exact ⟨m, rfl, by simp [unionPoints], by simp [unionCells], rfl⟩
  | cons o os ih =>
    obtain ⟨k, rfl⟩ : ∃ k, n = k + 1 := ⟨n - 1, by simp at hn; omega⟩
    obtain ⟨g, hb⟩ := hg o (by simp)
    simp only [unionPoints, List.map_cons, List.flatMap_cons, List.length_append, List.length_map] at hW
    obtain ⟨st, h1, h2⟩ := buildSurface_any (base := o.1) (m := m) g (by omega) hs
    have e : fileOf (o :: os) = textTS o.1 o.2 ++ fileOf os := by simp [fileOf]
    rw [e, loadTSLoop_text g hb, h1, Res.ok_bind]
    obtain ⟨l, hl, hp, hc, hnm⟩ := ih ⟨o.2.name <|> m.name, m.points ++ o.2.points.map Pt.round,
      m.cells ++ o.2.cells.map (moveTri m.points.length), st⟩ k (by simp at hn; omega)
      (fun o' ho' => hg o' (by simp [ho'])) (by simp only [unionPoints, List.length_append, List.length_map]; omega) (by simpa using h2)
    refine ⟨l, hl, ?_, ?_, ?_⟩
    · rw [hp]; simp [unionPoints]
    · rw [hc]
      simp only [List.map_cons, unionCells, List.length_append, List.length_map, List.append_assoc]
      rfl
    · rw [hnm]; rfl

/-- **C06.** A file of any number of objects, each numbered from its own base, loads as the disjoint union. -/
theorem union_of_objects [LawfulNum D] (objs : List (Nat × Mesh Tri D))
    (hg : ∀ o ∈ objs, GoodSurf o.2 ∧ o.1 + o.2.points.length ≤ W)
    (hW : (unionPoints (objs.map Prod.snd)).length ≤ W) :
    ∃ l, loadTS (fileOf objs) = .ok l ∧ l.points = unionPoints (objs.map Prod.snd) ∧
      l.cells = unionCells 0 (objs.map Prod.snd) ∧ l.name = unionName none (objs.map Prod.snd) := by
  obtain ⟨l, h, hp, hc, hn⟩ := union_loop objs {} ((fileOf objs).length + 1)
    (by have := fileOf_length objs; omega) hg (by simpa using hW) (by intro p hp; simp at hp)
  exact ⟨l, h, by simpa using hp, by simpa using hc, by simpa using hn⟩

example : ∃ objs : List (Nat × Mesh Tri Int), objs.length = 3 ∧
    (∀ o ∈ objs, GoodSurf o.2 ∧ o.1 + o.2.points.length ≤ W) ∧ (unionPoints (objs.map Prod.snd)).length ≤ W := by
  refine ⟨[(1, sample), (0, sample), (100, sample)], rfl, ?_, by decide⟩
  intro o ho
  simp only [List.mem_cons, List.not_mem_nil, or_false] at ho
  rcases ho with rfl | rfl | rfl <;> exact ⟨good_sample, by decide⟩

/-! ## Properties of several objects -/

/-- Number of points before object `i`. -/
def pointsBefore (ms : List (Mesh Tri D)) (i : Nat) : Nat := (unionPoints (ms.take i)).length

/-- What C07 asks: at each vertex of each object, the value written on its own line. -/
def PropertiesKept (ms : List (Mesh Tri D)) : Prop :=
  ∃ l, loadTS (ms.flatMap saveTS) = .ok l ∧
    ∀ i m, ms[i]? = some m → ∀ a ∈ written m.attrs, ∀ v, v < m.points.length →
      ∃ c, l.store.lookup a.name = some c ∧
        c.vals[pointsBefore ms i + v]? = some [Num.round (Num.castF (a.val v))]

/-- Two one-point objects with a property of the same name. -/
def clash : List (Mesh Tri Int) :=
  [{ points := [⟨0, 0, 0⟩], cells := [], attrs := [⟨cs!"p", true, fun _ => 1⟩] },
   { points := [⟨5, 5, 5⟩], cells := [], attrs := [⟨cs!"p", true, fun _ => 2⟩] }]

theorem clash_loaded : loadTS (clash.flatMap saveTS) = .ok
    { points := [⟨0, 0, 0⟩, ⟨5, 5, 5⟩], cells := [], store := [(cs!"p", ⟨1, -99999, [[2], [-99999]]⟩)] } := by
  decide +kernel

/-- **C07 is false of the code**: the values of the second object overwrite those of the first, and its own vertex is left with
the no-data value. -/
theorem properties_overwritten :
    ¬ ∀ ms : List (Mesh Tri Int), (∀ m ∈ ms, GoodSurf m ∧ ((written m.attrs).map Attr.name).Nodup) → PropertiesKept ms := by
  intro h
  have hc := h clash (by
    intro m hm
    simp only [clash, List.mem_cons, List.not_mem_nil, or_false] at hm
    rcases hm with rfl | rfl
    · exact ⟨⟨by decide, by unfold GoodNames; decide, by decide, by decide⟩, by decide⟩
    · exact ⟨⟨by decide, by unfold GoodNames; decide, by decide, by decide⟩, by decide⟩)
  obtain ⟨l, hl, hv⟩ := hc
  rw [clash_loaded] at hl
  simp only [Res.ok.injEq] at hl
  obtain ⟨c, h1, h2⟩ := hv 0 _ rfl ⟨cs!"p", true, fun _ => 1⟩ (by simp [written]) 0 (by simp)
  rw [← hl] at h1
  simp [List.lookup] at h1
  rw [← h1] at h2
  simp [pointsBefore, unionPoints, Num.round, Num.castF] at h2

theorem plain_loop [LawfulNum D] (ms : List (Mesh Tri D)) (m : Loaded Tri D) (n : Nat) (hn : ms.length < n)
    (hg : ∀ o ∈ ms, GoodSurf o ∧ written o.attrs = [])
    (hW : m.points.length + (unionPoints ms).length ≤ W) (hs : StoreOk m.points.length m.store) :
    ∃ l, loadTSLoop n m (ms.flatMap saveTS) = .ok l ∧
      l.store = growStore (m.points.length + (unionPoints ms).length) m.store := by
  induction ms generalizing m n with
  | nil =>
    obtain ⟨k, rfl⟩ : ∃ k, n = k + 1 := ⟨n - 1, by simp at hn; omega⟩
    refine ⟨m, rfl, ?_⟩
    unfold growStore
    conv => lhs; rw [← List.map_id m.store]
    apply List.map_congr_left
    intro p hp
    have := hs p hp
    simp [unionPoints, this]
  | cons o os ih =>
    obtain ⟨k, rfl⟩ : ∃ k, n = k + 1 := ⟨n - 1, by simp at hn; omega⟩
    obtain ⟨g, ha⟩ := hg o (by simp)
    simp only [unionPoints, List.flatMap_cons, List.length_append, List.length_map] at hW
    have h1 := buildSurface_plain (base := 0) (m := m) g (by omega) ha
    rw [List.flatMap_cons, saveTS_eq, loadTSLoop_text g (by have := g.size; omega), h1, Res.ok_bind]
    obtain ⟨l, hl, hst⟩ := ih ⟨o.name <|> m.name, m.points ++ o.points.map Pt.round,
      m.cells ++ o.cells.map (moveTri m.points.length), growStore (m.points.length + o.points.length) m.store⟩ k
      (by simp at hn; omega) (fun o' ho' => hg o' (by simp [ho'])) (by simp only [unionPoints, List.length_append, List.length_map]; omega)
      (by simpa using growStore_ok (by omega) hs)
    refine ⟨l, hl, ?_⟩
    rw [hst]
    simp only [List.length_append, List.length_map, unionPoints, List.flatMap_cons]
    rw [growStore_grow (by omega)]
    congr 1
    omega

/-- **C07, partial**: when only the first object of the file carries properties, its vertices keep their values.  The full statement
is `∀ ms, ... → PropertiesKept ms`, refuted above. -/
theorem properties_kept_partial [LawfulNum D] (m : Mesh Tri D) (ms : List (Mesh Tri D)) (g : GoodSurf m)
    (hd : ((written m.attrs).map Attr.name).Nodup) (hg : ∀ o ∈ ms, GoodSurf o ∧ written o.attrs = [])
    (hW : (unionPoints (m :: ms)).length ≤ W) : PropertiesKept (m :: ms) := by
  have hfile : (m :: ms).flatMap saveTS = textTS 0 m ++ ms.flatMap saveTS := by simp [saveTS_eq]
  have hlen : ms.length < ((m :: ms).flatMap saveTS).length := by
    have h1 := length_textTS_pos 0 m
    have h2 := fileOf_length (ms.map fun m => (0, m))
    simp only [fileOf, List.flatMap_map, List.length_map] at h2
    rw [hfile, List.length_append]
    have e : (List.flatMap (fun x : Mesh Tri D => textTS 0 x) ms) = List.flatMap saveTS ms := by
      congr 1; funext x; exact (saveTS_eq x).symm
    rw [e] at h2
    omega
  simp only [unionPoints, List.flatMap_cons, List.length_append, List.length_map] at hW
  obtain ⟨l, hl, hst⟩ := plain_loop ms ⟨m.name, m.points.map Pt.round, m.cells,
      (written m.attrs).map fun a => (a.name, loadedCol m.points.length a)⟩ (((m :: ms).flatMap saveTS).length) hlen hg
      (by simp only [unionPoints, List.length_map]; omega)
      (by intro p hp; obtain ⟨a, _, rfl⟩ := List.mem_map.1 hp; simp [loadedCol])
  refine ⟨l, ?_, ?_⟩
  · unfold loadTS
    conv => lhs; arg 3; rw [hfile]
    rw [loadTSLoop_text g (by have := g.size; omega), buildSurface_first g hd, Res.ok_bind, hl]
  · intro i o ho a ha v hv
    cases i with
    | succ i =>
      have : o ∈ ms := by
        rw [List.getElem?_cons_succ] at ho
        exact List.mem_of_getElem? ho
      rw [(hg o this).2] at ha
      exact absurd ha (by simp)
    | zero =>
      simp only [List.getElem?_cons_zero, Option.some.injEq] at ho
      subst ho
      rw [hst]
      refine ⟨_, lookup_growStore (lookup_map_name hd ha), ?_⟩
      have h0 : pointsBefore (m :: ms) 0 + v = v := by simp [pointsBefore, unionPoints]
      rw [h0, List.getElem?_append_left (by simpa [loadedCol] using hv)]
      simp [loadedCol, hv]

example : ∃ ms : List (Mesh Tri Int), ms.length = 2 ∧ (∀ o ∈ ms, GoodSurf o ∧ written o.attrs = []) ∧
    (unionPoints (sample :: ms)).length ≤ W := by
  refine ⟨[{ sample with attrs := [] }, { sample with attrs := [], name := none }], rfl, ?_, by decide⟩
  intro o ho
  simp only [List.mem_cons, List.not_mem_nil, or_false] at ho
  rcases ho with rfl | rfl
  · exact ⟨⟨by decide, by unfold GoodNames; decide, by decide, by decide⟩, rfl⟩
  · exact ⟨⟨by decide, by unfold GoodNames; decide, by decide, by decide⟩, rfl⟩

end Verif.Props.TSurf
