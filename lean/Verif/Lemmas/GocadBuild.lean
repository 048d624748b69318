import Verif.Lemmas.GocadLoad

/-! # Lemmas on building a surface or a point set from several objects -/

set_option linter.unusedSectionVars false

namespace Verif.GocadMesh

open Verif Verif.Gocad

variable {D : Type} [Num D]

/-- A triangle moved by `off` vertices. -/
def moveTri (off : Nat) (t : Tri) : Tri := (off + t.1, off + t.2.1, off + t.2.2)

/-- Column of a written attribute after loading. -/
def loadedCol (n : Nat) (a : Attr D) : Column D :=
  ⟨1, Num.round Num.noData, (List.range n).map fun v => [Num.round (Num.castF (a.val v))]⟩

theorem bind_ne_diverge' {α β : Type} {r : Res α} {k : α → Res β} (h : r ≠ .diverge) (hk : ∀ a, r = .ok a → k a ≠ .diverge) :
    r >>= k ≠ .diverge := by
  cases r with
  | ok a => rw [Res.ok_bind]; exact hk a rfl
  | throw => simp
  | ub => simp
  | diverge => exact absurd rfl h

theorem createAttributes_ne_diverge (nb : Nat) (inv : List Nat) (s : Store D) (ns : List Str) (es : List Nat) (ds : List D)
    (vs : List (List D)) : createAttributes nb inv s ns es ds vs ≠ .diverge := by
  induction ns generalizing s es ds vs with
  | nil => simp [createAttributes]
  | cons n ns ih =>
    match es, ds, vs with
    | [], _, _ => simp [createAttributes]
    | _ :: _, [], _ => simp [createAttributes]
    | _ :: _, _ :: _, [] => simp [createAttributes]
    | e :: es, d :: ds, v :: vs =>
      rw [createAttributes]
      refine bind_ne_diverge ?_ fun _ => ih _ _ _ _
      unfold createAttribute
      refine bind_ne_diverge (mapM'_ne_diverge fun i => mapM'_ne_diverge (index_ne_diverge _)) fun items => ?_
      refine bind_ne_diverge ?_ fun _ => by simp
      unfold setFrom; split <;> simp

theorem createTriangle_ne_diverge (nb : Nat) (t : Tri) : createTriangle nb t ≠ .diverge := by
  unfold createTriangle; split <;> simp

theorem buildSurface_ne_diverge (m : Loaded Tri D) (ts : TSurf D) : buildSurface m ts ≠ .diverge := by
  unfold buildSurface
  refine bind_ne_diverge (mapM'_ne_diverge fun t => createTriangle_ne_diverge _ _) fun _ => ?_
  exact bind_ne_diverge (createAttributes_ne_diverge _ _ _ _ _ _ _) fun _ => by simp

theorem loadTSLoop_terminates (n : Nat) (m : Loaded Tri D) (f : File) (h : f.length < n) : loadTSLoop n m f ≠ .diverge := by
  induction n generalizing m f with
  | zero => omega
  | succ n ih =>
    rw [loadTSLoop]
    have hf := readTSurf_fwd (D := D) f
    refine bind_ne_diverge' hf.1 ?_
    intro o ho
    match o with
    | none => simp
    | some (ts, f') =>
      have := hf.2 ts f' ho
      exact bind_ne_diverge (buildSurface_ne_diverge _ _) fun m' => ih m' f' (by omega)

theorem buildSurface_tris {m : Loaded Tri D} {s : Mesh Tri D} (g : GoodSurf s)
    (hW : m.points.length + s.points.length ≤ W) :
    Res.mapM' (fun t => createTriangle (m.points ++ s.points.map Pt.round).length
        (if m.points.length = 0 then t else shiftTri m.points.length t)) s.cells =
      .ok (s.cells.map (moveTri m.points.length)) := by
  apply Res.mapM'_ok
  intro t ht
  have := g.tris t ht
  have e : (if m.points.length = 0 then t else shiftTri m.points.length t) = moveTri m.points.length t := by
    split
    · next h => simp [moveTri, h]
    · simp only [shiftTri, moveTri, shift32]
      rw [Nat.mod_eq_of_lt (by omega), Nat.mod_eq_of_lt (by omega), Nat.mod_eq_of_lt (by omega)]
      simp [Nat.add_comm]
  rw [e]
  unfold createTriangle
  rw [if_pos]
  simp only [moveTri, List.length_append, List.length_map]
  omega

theorem createAttributes_written {nb : Nat} {st : Store D} {as : List (Attr D)} {n : Nat} (hn : n ≤ nb) (hs : StoreOk nb st) :
    ∃ st', createAttributes nb (List.range n) st (readBackProps (as.map Attr.name) : PropHeader D).names
      (readBackProps (as.map Attr.name) : PropHeader D).esizes (readBackProps (as.map Attr.name) : PropHeader D).noData
      (as.map (colOf (List.range n))) = .ok st' ∧ StoreOk nb st' := by
  apply createAttributes_total hn
  · exact hs
  · simp [readBackProps_names, readBackProps_esizes]
  · simp [readBackProps_names, readBackProps_noData]
  · simp [readBackProps_names]
  · intro i e v he hv
    rw [readBackProps_esizes] at he
    simp only [List.map_map, List.getElem?_map, Option.map_eq_some_iff] at he hv
    obtain ⟨_, _, rfl⟩ := he
    obtain ⟨a, _, rfl⟩ := hv
    simp [colOf]

theorem buildSurface_any {m : Loaded Tri D} {s : Mesh Tri D} {base : Nat} (g : GoodSurf s)
    (hW : m.points.length + s.points.length ≤ W) (hs : StoreOk m.points.length m.store) :
    ∃ st, buildSurface m (tsurfOf base s) = .ok ⟨s.name <|> m.name, m.points ++ s.points.map Pt.round,
      m.cells ++ s.cells.map (moveTri m.points.length), st⟩ ∧ StoreOk (m.points.length + s.points.length) st := by
  obtain ⟨st, h1, h2⟩ := createAttributes_written (as := written s.attrs) (n := s.points.length)
    (nb := (m.points ++ s.points.map Pt.round).length) (st := growStore (m.points ++ s.points.map Pt.round).length m.store)
    (by simp) (growStore_ok (by simp) hs)
  refine ⟨st, ?_, by simpa using h2⟩
  unfold buildSurface
  simp only [tsurfOf, List.length_map]
  rw [buildSurface_tris g hW, Res.ok_bind, h1, Res.ok_bind]
  simp

theorem createAttributes_written_fresh {as : List (Attr D)} {n : Nat} (hd : (as.map Attr.name).Nodup) :
    createAttributes n (List.range n) [] (readBackProps (as.map Attr.name) : PropHeader D).names
      (readBackProps (as.map Attr.name) : PropHeader D).esizes (readBackProps (as.map Attr.name) : PropHeader D).noData
      (as.map (colOf (List.range n))) = .ok (as.map fun a => (a.name, loadedCol n a)) := by
  have h := createAttributes_fresh as Attr.name (fun _ => Num.round Num.noData) (colOf (List.range n)) n
    (by intro a _; simp [colOf]) hd [] (by simp)
  rw [readBackProps_names, readBackProps_esizes, readBackProps_noData, List.map_map, List.map_map]
  have e1 : ((fun _ : Str => 1) ∘ (Attr.name : Attr D → Str)) = fun _ => 1 := rfl
  have e2 : ((fun _ : Str => (Num.round Num.noData : D)) ∘ (Attr.name : Attr D → Str)) = fun _ => Num.round Num.noData := rfl
  rw [e1, e2, h]
  simp [loadedCol, colOf]

theorem buildSurface_first {s : Mesh Tri D} {base : Nat} (g : GoodSurf s) (hd : ((written s.attrs).map Attr.name).Nodup) :
    buildSurface {} (tsurfOf base s) = .ok ⟨s.name, s.points.map Pt.round, s.cells,
      (written s.attrs).map fun a => (a.name, loadedCol s.points.length a)⟩ := by
  unfold buildSurface
  have ht := buildSurface_tris (m := ({} : Loaded Tri D)) g (by have := g.size; simp; omega)
  have hm : s.cells.map (moveTri 0) = s.cells := by
    conv => rhs; rw [← List.map_id s.cells]
    apply List.map_congr_left
    intro t _; simp [moveTri]
  simp only [List.length_nil, if_true, List.nil_append] at ht
  simp only [tsurfOf, List.length_map, List.length_nil, if_true, List.nil_append] at ht ⊢
  rw [ht, Res.ok_bind, hm]
  simp only [growStore, List.map_nil]
  rw [createAttributes_written_fresh hd, Res.ok_bind]
  cases s.name <;> simp

theorem growStore_grow {nb nb' : Nat} (h : nb ≤ nb') (s : Store D) : growStore nb' (growStore nb s) = growStore nb' s := by
  unfold growStore
  rw [List.map_map]
  apply List.map_congr_left
  rintro ⟨n, c⟩ _
  simp only [Function.comp, List.length_append, List.length_replicate, List.append_assoc, List.replicate_append_replicate]
  congr 3
  congr 2
  omega

theorem buildSurface_plain {m : Loaded Tri D} {s : Mesh Tri D} {base : Nat} (g : GoodSurf s)
    (hW : m.points.length + s.points.length ≤ W) (hn : written s.attrs = []) :
    buildSurface m (tsurfOf base s) = .ok ⟨s.name <|> m.name, m.points ++ s.points.map Pt.round,
      m.cells ++ s.cells.map (moveTri m.points.length), growStore (m.points.length + s.points.length) m.store⟩ := by
  unfold buildSurface
  simp only [tsurfOf, List.length_map]
  rw [buildSurface_tris g hW, Res.ok_bind, hn]
  simp [readBackProps, createAttributes]

/-- One turn of the loading loop on a written surface. -/
theorem loadTSLoop_text [LawfulNum D] {n base : Nat} {m : Loaded Tri D} {s : Mesh Tri D} (g : GoodSurf s)
    (hb : base + s.points.length ≤ W) (rest : File) :
    loadTSLoop (n + 1) m (textTS base s ++ rest) = (buildSurface m (tsurfOf base s) >>= fun m' => loadTSLoop n m' rest) := by
  rw [loadTSLoop, readTSurf_textTS g hb, Res.ok_bind]

theorem loadTSLoop_nil {n : Nat} (m : Loaded Tri D) : loadTSLoop (n + 1) m [] = .ok m := rfl

theorem length_textTS_pos (base : Nat) (s : Mesh Tri D) : 0 < (textTS base s).length := by
  simp [textTS]

theorem lookup_map_name {as : List (Attr D)} {n : Nat} (hd : (as.map Attr.name).Nodup) {a : Attr D} (ha : a ∈ as) :
    (as.map fun a => (a.name, loadedCol n a)).lookup a.name = some (loadedCol n a) := by
  induction as with
  | nil => simp at ha
  | cons b as ih =>
    simp only [List.map_cons, List.nodup_cons] at hd
    rw [List.map_cons, List.lookup_cons]
    rcases List.mem_cons.1 ha with rfl | ha
    · simp
    · have : a.name ≠ b.name := fun e => hd.1 (e ▸ List.mem_map.2 ⟨a, ha, rfl⟩)
      simp only [beq_eq_false_iff_ne.2 this]
      exact ih hd.2 ha

theorem lookup_growStore {s : Store D} {n : Str} {c : Column D} {nb : Nat} (h : s.lookup n = some c) :
    (growStore nb s).lookup n = some { c with
      vals := c.vals ++ List.replicate (nb - c.vals.length) (List.replicate c.esize c.dflt) } := by
  induction s with
  | nil => simp at h
  | cons p s ih =>
    obtain ⟨k, c'⟩ := p
    rw [List.lookup_cons] at h
    simp only [growStore, List.map_cons] at ih ⊢
    rw [List.lookup_cons]
    split at h
    · simp only [Option.some.injEq] at h; subst h; rfl
    · exact ih h

end Verif.GocadMesh
