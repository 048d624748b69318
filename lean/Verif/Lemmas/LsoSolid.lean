import Verif.Lemmas.LsoVertices
import Verif.Lemmas.GocadMesh

/-!
# Reading back the vertices and the tetrahedra of a saved solid
-/

namespace Verif.Lso

open Verif Verif.Gocad Verif.GocadMesh Verif.Sides Res

variable {D : Type} [Num D]

/-! ## Meshes made of the vertices met so far -/

theorem idxOf_of_prefix {l l' : List Nat} (h : l <+: l') {v : Nat} (hv : v ∈ l) : l'.idxOf v = l.idxOf v := by
  obtain ⟨t, rfl⟩ := h
  exact List.idxOf_append_of_mem hv

theorem localVertex_spec {used : List Nat} (hn : used.Nodup) (v : Nat) :
    (localVertex used v).1.Nodup ∧ used <+: (localVertex used v).1 ∧ v ∈ (localVertex used v).1 ∧
      (localVertex used v).2 = (localVertex used v).1.idxOf v ∧ ∀ w ∈ (localVertex used v).1, w ∈ used ∨ w = v := by
  unfold localVertex
  by_cases h : v ∈ used
  · have : used.contains v = true := by simpa using h
    rw [if_pos this]
    exact ⟨hn, List.prefix_refl _, h, rfl, fun w hw => Or.inl hw⟩
  · have : ¬ used.contains v = true := by simpa using h
    rw [if_neg this]
    refine ⟨?_, List.prefix_append _ _, by simp, ?_, ?_⟩
    · simp only
      rw [List.nodup_append']
      refine ⟨hn, by simp, ?_⟩
      intro a ha hb
      simp only [List.mem_singleton] at hb
      exact h (hb ▸ ha)
    · simp only
      rw [List.idxOf_append_of_notMem h]; simp
    · intro w hw
      simpa using hw

theorem localCell_spec {used : List Nat} (hn : used.Nodup) (vs : List Nat) :
    (localCell used vs).1.Nodup ∧ used <+: (localCell used vs).1 ∧ (∀ v ∈ vs, v ∈ (localCell used vs).1) ∧
      (localCell used vs).2 = vs.map (localCell used vs).1.idxOf ∧ ∀ w ∈ (localCell used vs).1, w ∈ used ∨ w ∈ vs := by
  induction vs generalizing used with
  | nil => exact ⟨hn, List.prefix_refl _, by simp, rfl, fun w hw => Or.inl hw⟩
  | cons v vs ih =>
    obtain ⟨h1, h2, h3, h4, h5⟩ := localVertex_spec hn v
    obtain ⟨g1, g2, g3, g4, g5⟩ := ih h1
    have e1 : (localCell used (v :: vs)).1 = (localCell (localVertex used v).1 vs).1 := rfl
    have e2 : (localCell used (v :: vs)).2 = (localVertex used v).2 :: (localCell (localVertex used v).1 vs).2 := rfl
    rw [e1, e2]
    refine ⟨g1, h2.trans g2, ?_, ?_, ?_⟩
    · intro w hw
      rcases List.mem_cons.1 hw with rfl | hw
      · exact g2.subset h3
      · exact g3 w hw
    · rw [List.map_cons, ← g4, h4, idxOf_of_prefix g2 h3]
    · intro w hw
      rcases g5 w hw with h | h
      · rcases h5 w h with h | h
        · exact Or.inl h
        · exact Or.inr (by simp [h])
      · exact Or.inr (List.mem_cons_of_mem _ h)

/-- The mesh made of cells has each vertex once, and the cells have the places of their vertices. -/
theorem localCells_spec {used : List Nat} (hn : used.Nodup) (ts : List (List Nat)) :
    (localCells used ts).1.Nodup ∧ used <+: (localCells used ts).1 ∧ (∀ t ∈ ts, ∀ v ∈ t, v ∈ (localCells used ts).1) ∧
      (localCells used ts).2 = ts.map (List.map (localCells used ts).1.idxOf) ∧
      ∀ w ∈ (localCells used ts).1, w ∈ used ∨ ∃ t ∈ ts, w ∈ t := by
  induction ts generalizing used with
  | nil => exact ⟨hn, List.prefix_refl _, by simp, rfl, fun w hw => Or.inl hw⟩
  | cons t ts ih =>
    obtain ⟨h1, h2, h3, h4, h5⟩ := localCell_spec hn t
    obtain ⟨g1, g2, g3, g4, g5⟩ := ih h1
    have e1 : (localCells used (t :: ts)).1 = (localCells (localCell used t).1 ts).1 := rfl
    have e2 : (localCells used (t :: ts)).2 = (localCell used t).2 :: (localCells (localCell used t).1 ts).2 := rfl
    rw [e1, e2]
    refine ⟨g1, h2.trans g2, ?_, ?_, ?_⟩
    · intro t' ht v hv
      rcases List.mem_cons.1 ht with rfl | ht
      · exact g2.subset (h3 v hv)
      · exact g3 t' ht v hv
    · rw [List.map_cons, ← g4, h4]
      congr 1
      exact List.map_congr_left fun v hv => (idxOf_of_prefix g2 (h3 v hv)).symm
    · intro w hw
      rcases g5 w hw with h | ⟨t', ht', h⟩
      · rcases h5 w h with h | h
        · exact Or.inl h
        · exact Or.inr ⟨t, by simp, h⟩
      · exact Or.inr ⟨t', List.mem_cons_of_mem _ ht', h⟩

theorem localCells_append (used : List Nat) (ts us : List (List Nat)) :
    localCells used (ts ++ us) = ((localCells (localCells used ts).1 us).1, (localCells used ts).2 ++ (localCells (localCells used ts).1 us).2) := by
  induction ts generalizing used with
  | nil => rfl
  | cons t ts ih =>
    have e : ∀ x, localCells used (t :: x) = ((localCells (localCell used t).1 x).1, (localCell used t).2 :: (localCells (localCell used t).1 x).2) := fun _ => rfl
    rw [List.cons_append, e, e, ih]
    rfl

/-! ## Words of lines -/

theorem contains_prefix (sub s : Str) : contains sub (sub ++ s) = true := by
  cases h : sub ++ s with
  | nil =>
    have : sub = [] := (List.append_eq_nil_iff.1 h).1
    simp [contains, this]
  | cons c cs =>
    rw [contains, ← h]
    have : sub.isPrefixOf (sub ++ s) = true := by simp
    simp [this]

theorem contains_append (sub a s : Str) (h : contains sub s = true) : contains sub (a ++ s) = true := by
  induction a with
  | nil => exact h
  | cons c a ih => rw [List.cons_append, contains, ih]; simp

theorem contains_false {sub s : Str} {c : Char} (hc : c ∈ sub) (hs : c ∉ s) : contains sub s = false := by
  induction s with
  | nil =>
    cases sub with
    | nil => simp at hc
    | cons a b => rfl
  | cons d s ih =>
    rw [contains, ih (fun h => hs (List.mem_cons_of_mem _ h))]
    have : sub.isPrefixOf (d :: s) = false := by
      rw [Bool.eq_false_iff]
      intro h
      obtain ⟨t, ht⟩ := List.isPrefixOf_iff_prefix.1 h
      exact hs (ht ▸ List.mem_append_left _ hc)
    simp [this]

theorem mem_spaced {c : Char} {ts : List Str} (h : c ∈ spaced ts) : c = ' ' ∨ ∃ t ∈ ts, c ∈ t := by
  induction ts with
  | nil => simp [spaced] at h
  | cons t ts ih =>
    rw [spaced] at h
    rcases List.mem_append.1 h with h | h
    · rcases List.mem_cons.1 h with h | h
      · exact Or.inl h
      · exact Or.inr ⟨t, by simp, h⟩
    · rcases ih h with h | ⟨u, hu, h⟩
      · exact Or.inl h
      · exact Or.inr ⟨u, List.mem_cons_of_mem _ hu, h⟩

theorem vee_not_mem_showNat (n : Nat) : 'V' ∉ showNat n := by
  intro h
  have := (showNat_spec n).2.1 'V' h
  revert this
  decide

/-! ## Vertices -/

theorem readVertex_vrtx [LawfulNum D] (s : Solid D) (n : Nat) (p : Pt D) :
    readVertex true [] s (cs!"VRTX" ++ spaced (showNat n :: p.toks)) =
      .ok { s with points := s.points ++ [p.round], ids := s.ids ++ [s.nbUnique], nbUnique := s.nbUnique + 1 } := by
  have ht : split (cs!"VRTX" ++ spaced (showNat n :: p.toks)) = cs!"VRTX" :: showNat n :: p.toks := by
    refine split_kw_spaced (by decide) ?_
    intro x hx
    rcases List.mem_cons.1 hx with rfl | hx
    · exact isTok_showNat n
    · exact isTok_toks p x hx
  unfold readVertex
  have hs : startsWith (cs!"VRTX" ++ spaced (showNat n :: p.toks)) cs!"SHARED" = false := rfl
  simp only [hs, ht, Bool.false_eq_true, if_false]
  have := readPoint_toks (D := D) cs!"VRTX" (showNat n) p []
  rw [List.append_nil] at this
  rw [this]
  rfl

theorem readVertex_shared (s : Solid D) (n a : Nat) {p : Pt D} (h1 : 1 ≤ a) (h2 : a ≤ s.nbUnique) (hw : a < W) (hp : s.points[a - 1]? = some p) :
    readVertex true [] s (cs!"SHAREDVRTX" ++ spaced [showNat n, showNat a]) =
      .ok { s with points := s.points ++ [p], ids := s.ids ++ [a - 1] } := by
  have ht : split (cs!"SHAREDVRTX" ++ spaced [showNat n, showNat a]) = [cs!"SHAREDVRTX", showNat n, showNat a] := by
    refine split_kw_spaced (by decide) ?_
    intro x hx
    simp only [List.mem_cons, List.not_mem_nil, or_false] at hx
    rcases hx with rfl | rfl <;> exact isTok_showNat _
  unfold readVertex
  have hs : startsWith (cs!"SHAREDVRTX" ++ spaced [showNat n, showNat a]) cs!"SHARED" = true := rfl
  simp only [hs, ht, if_true, index_cons_succ, index_cons_zero, ok_bind, readIndex_showNat hw, sub32_of_le h1 hw]
  rw [index_eq_ok.2 hp]
  simp only [ok_bind, readProperties]
  rw [if_pos (by omega)]
  rfl

theorem readVerticesLoop_vrtx [LawfulNum D] (ps : List (Pt D)) (rest : File) : ∀ (s : Solid D) (n : Nat),
    readVerticesLoop true [] s (vrtxLines n ps ++ rest) =
      readVerticesLoop true [] { s with points := s.points ++ ps.map Pt.round, ids := s.ids ++ List.range' s.nbUnique ps.length
                                        nbUnique := s.nbUnique + ps.length } rest := by
  induction ps with
  | nil => intro s n; simp [vrtxLines]
  | cons p ps ih =>
    intro s n
    rw [vrtxLines, List.cons_append, readVerticesLoop, if_pos (contains_prefix _ _), readVertex_vrtx, ok_bind, ih]
    have e : s.nbUnique + (ps.length + 1) = s.nbUnique + 1 + ps.length := by omega
    simp [List.range'_succ, e]

theorem readVerticesLoop_shared (as : List Nat) (rest : File) : ∀ (s : Solid D) (n : Nat), (∀ a ∈ as, 1 ≤ a ∧ a ≤ s.nbUnique ∧ a < W) →
    s.nbUnique ≤ s.points.length → ∃ qs, List.Forall₂ (fun a q => s.points[a - 1]? = some q) as qs ∧
    readVerticesLoop true [] s (sharedLines n as ++ rest) =
      readVerticesLoop true [] { s with points := s.points ++ qs, ids := s.ids ++ as.map (· - 1) } rest := by
  induction as with
  | nil => intro s n _ _; exact ⟨[], List.Forall₂.nil, by simp [sharedLines]⟩
  | cons a as ih =>
    intro s n h hl
    obtain ⟨h1, h2, h3⟩ := h a (by simp)
    have hlt : a - 1 < s.points.length := by omega
    have hp : s.points[a - 1]? = some s.points[a - 1] := List.getElem?_eq_getElem hlt
    obtain ⟨qs, hq, e⟩ := ih { s with points := s.points ++ [s.points[a - 1]], ids := s.ids ++ [a - 1] } (n + 1)
      (fun x hx => h x (List.mem_cons_of_mem _ hx)) (by simp; omega)
    refine ⟨s.points[a - 1] :: qs, List.Forall₂.cons hp ?_, ?_⟩
    · have hall : ∀ x ∈ as, x - 1 < s.points.length := fun x hx => by have := h x (List.mem_cons_of_mem _ hx); omega
      clear e ih h
      induction hq with
      | nil => exact List.Forall₂.nil
      | cons hxq _ ih2 =>
        refine List.Forall₂.cons ?_ (ih2 fun x hx => hall x (List.mem_cons_of_mem _ hx))
        simp only at hxq
        rwa [List.getElem?_append_left (hall _ (by simp))] at hxq
    · have hc : contains cs!"VRTX" (cs!"SHAREDVRTX" ++ spaced [showNat n, showNat a]) = true := by
        have e : cs!"SHAREDVRTX" ++ spaced [showNat n, showNat a] = cs!"SHARED" ++ (cs!"VRTX" ++ spaced [showNat n, showNat a]) := rfl
        rw [e]
        exact contains_append _ _ _ (contains_prefix _ _)
      rw [sharedLines, List.cons_append, readVerticesLoop, if_pos hc, readVertex_shared s n a h1 h2 h3 hp, ok_bind, e]
      simp

/-! ## Tetrahedra -/

/-- The first word of a name followed by `d`. -/
def wordOr (n d : Str) : Str := (split n ++ [d]).headD []

/-- The line of a tetrahedron. -/
def tetraLine (vs : List Nat) : Str := cs!"TETRA" ++ spaced (vs.map fun v => showNat (v + 1))

/-- The line after it. -/
def ctetraLine (n : Str) : Str := cs!"# CTETRA" ++ spaced [n, cs!"none", cs!"none", cs!"none", cs!"none"]

/-- The lines of tetrahedra given by the ranks of their vertices and the names of their blocks. -/
def tetraLines : List (List Nat × Str) → File
  | [] => []
  | r :: rs => tetraLine r.1 :: ctetraLine r.2 :: tetraLines rs

theorem readCell_toks (kw : Str) (vs : List Nat) (h : ∀ v ∈ vs, v + 1 < W) (n : Nat) (hn : vs.length = n) :
    readCell n (kw :: vs.map fun v => showNat (v + 1)) = .ok vs := by
  unfold readCell
  have e : List.range' 1 n = (List.range n).map (· + 1) := by
    rw [List.range'_eq_map_range]; exact List.map_congr_left fun _ _ => Nat.add_comm _ _
  have key : ∀ i ∈ List.range n, (do
      let v ← readIndex (← Res.index (kw :: vs.map fun v => showNat (v + 1)) (i + 1))
      pure (sub32 v 1) : Res Nat) = .ok (vs.getD i 0) := by
    intro i hi
    have hi' : i < vs.length := by rw [hn]; exact List.mem_range.1 hi
    have hv := h vs[i] (List.getElem_mem hi')
    have hi2 : Res.index (vs.map fun v => showNat (v + 1)) i = .ok (showNat (vs[i] + 1)) := index_eq_ok.2 (by simp [hi'])
    rw [index_cons_succ, hi2, ok_bind, readIndex_showNat hv, ok_bind,
      sub32_of_le (by omega) hv, List.getD_eq_getElem?_getD, List.getElem?_eq_getElem hi']
    simp
  rw [e]
  have : Res.mapM' (fun i => (do
      let v ← readIndex (← Res.index (kw :: vs.map fun v => showNat (v + 1)) i)
      pure (sub32 v 1) : Res Nat)) ((List.range n).map (· + 1)) = .ok ((List.range n).map fun i => vs.getD i 0) := by
    generalize List.range n = l at key
    induction l with
    | nil => rfl
    | cons i l ih =>
      rw [List.map_cons, mapM'_cons, key i (by simp), ok_bind, ih fun j hj => key j (List.mem_cons_of_mem _ hj)]
      rfl
  refine this.trans ?_
  congr 1
  subst hn
  refine List.ext_getElem (by simp) ?_
  intro i h1 h2
  simp [List.getD_eq_getElem?_getD, h2]

theorem split_tetra (vs : List Nat) : split (cs!"TETRA" ++ spaced (vs.map fun v => showNat (v + 1))) = cs!"TETRA" :: vs.map fun v => showNat (v + 1) := by
  refine split_kw_spaced (by decide) ?_
  intro x hx
  obtain ⟨v, _, rfl⟩ := List.mem_map.1 hx
  exact isTok_showNat _

theorem split_ctetra (n : Str) : Res.index (split (cs!"# CTETRA" ++ spaced [n, cs!"none", cs!"none", cs!"none", cs!"none"])) 2 = .ok (wordOr n cs!"none") := by
  have e : cs!"# CTETRA" ++ spaced [n, cs!"none", cs!"none", cs!"none", cs!"none"]
      = cs!"#" ++ spaced [cs!"CTETRA", n, cs!"none", cs!"none", cs!"none", cs!"none"] := rfl
  rw [e, split_kw_spaced' (by decide)]
  have e2 : split cs!"CTETRA" = [cs!"CTETRA"] := by decide
  have e3 : split cs!"none" = [cs!"none"] := by decide
  simp only [List.flatMap_cons, List.flatMap_nil, e2, e3, List.singleton_append, index_cons_succ]
  unfold wordOr
  cases split n <;> rfl

theorem readTetra_line (s : Solid D) (vs : List Nat) (n : Str) (h4 : vs.length = 4) (hv : ∀ v ∈ vs, v < s.points.length) (hw : ∀ v ∈ vs, v + 1 < W) :
    readTetra [] s (tetraLine vs) (ctetraLine n) = .ok { s with tetras := s.tetras ++ [vs], names := s.names ++ [wordOr n cs!"none"] } := by
  unfold readTetra
  have hc : createCell s.points.length vs = .ok vs := by
    unfold createCell
    rw [if_pos]
    simpa using hv
  have hs : split (tetraLine vs) = cs!"TETRA" :: vs.map fun v => showNat (v + 1) := split_tetra vs
  have hs2 : Res.index (split (ctetraLine n)) 2 = .ok (wordOr n cs!"none") := split_ctetra n
  rw [hs, readCell_toks _ _ hw 4 h4, ok_bind, hc, ok_bind]
  simp only [readProperties, ok_bind]
  rw [hs2]
  rfl

theorem startsWith_tetraLine (vs : List Nat) : startsWith (tetraLine vs) cs!"TETRA" = true := startsWith_append _ _

/-- Reading of tetrahedra up to a line that is not one. -/
theorem readTetras_lines (l : Str) (rest : File) (hl : startsWith l cs!"TETRA" = false) (rs : List (List Nat × Str)) :
    ∀ (r : List Nat × Str) (s : Solid D), (∀ e ∈ r :: rs, e.1.length = 4 ∧ ∀ v ∈ e.1, v < s.points.length ∧ v + 1 < W) →
    readTetras [] s (tetraLine r.1) (ctetraLine r.2 :: tetraLines rs ++ l :: rest) =
      .ok ({ s with tetras := s.tetras ++ (r :: rs).map Prod.fst, names := s.names ++ (r :: rs).map fun e => wordOr e.2 cs!"none" }, l, rest) := by
  induction rs with
  | nil =>
    intro r s h
    obtain ⟨h1, h2⟩ := h r (by simp)
    rw [tetraLines, List.cons_append, List.nil_append, readTetras,
      readTetra_line s r.1 r.2 h1 (fun v hv => (h2 v hv).1) (fun v hv => (h2 v hv).2), ok_bind, if_neg (by simp [hl])]
    rfl
  | cons r2 rs ih =>
    intro r s h
    obtain ⟨h1, h2⟩ := h r (by simp)
    rw [tetraLines, List.cons_append, List.cons_append, readTetras,
      readTetra_line s r.1 r.2 h1 (fun v hv => (h2 v hv).1) (fun v hv => (h2 v hv).2), ok_bind, if_pos (startsWith_tetraLine _)]
    refine (ih r2 { s with tetras := s.tetras ++ [r.1], names := s.names ++ [wordOr r.2 cs!"none"] } fun e he => h e (List.mem_cons_of_mem _ he)).trans ?_
    simp

end Verif.Lso
