import Verif.Model.Unfinished
import Verif.Lemmas.LsoModel

/-!
# Solids whose last line is not finished
-/

namespace Verif.Unfinished

open Verif Verif.Gocad Verif.Lso Res

variable {D : Type} [Num D]

@[simp] theorem keep_true (l : Str) : keep true l = [] := rfl
@[simp] theorem keep_false (l : Str) : keep false l = l := rfl

/-! ## Finished lines -/

theorem verticesLoop_true {z : Bool} {e : List Nat} (f : File) : ∀ (line : Str) (s : Solid D),
    verticesLoop true z e line s f = readVerticesLoop z e s f := by
  induction f with
  | nil => intro line s; rfl
  | cons l ls ih =>
    intro line s
    rw [verticesLoop, readVerticesLoop]
    by_cases h : contains cs!"VRTX" l = true
    · rw [if_pos h, if_pos h]
      congr 1
      funext s
      exact ih l s
    · rw [if_neg h, if_neg h]

theorem readVertices_true {z : Bool} {e : List Nat} (s : Solid D) (f : File) : readVertices true z e s f = Lso.readVertices z e s f := by
  unfold readVertices Lso.readVertices
  simp only [verticesLoop_true]

theorem nextLine_true (l : Str) (f : File) : nextLine true l f = Lso.nextLine f := by cases f <;> rfl

theorem skipSection_true (k l : Str) (f : File) : skipSection true k l f = Lso.skipSection k l f := by
  unfold skipSection Lso.skipSection
  simp only [nextLine_true]

theorem readTetras_true {e : List Nat} : ∀ (f : File) (s : Solid D) (l : Str), readTetras true e s l f = Lso.readTetras e s l f
  | [], s, l => rfl
  | [_], s, l => rfl
  | l2 :: l3 :: ls, s, l => by
    rw [readTetras, Lso.readTetras]
    congr 1
    funext s
    rw [readTetras_true ls s l3]

theorem surfacesLoop_true (s : Solid D) (f : File) : ∀ (line : Str) (x : RState × Mode), surfacesLoop true s line x f = readSurfacesLoop s x f := by
  induction f with
  | nil => intro line x; rfl
  | cons l ls ih =>
    intro line x
    rw [surfacesLoop, readSurfacesLoop]
    congr 1
    funext r
    cases r with
    | none => rfl
    | some r => exact ih l r

theorem readSurfaces_true (s : Solid D) (l : Str) (f : File) : readSurfaces true s l f = Lso.readSurfaces s l f := by
  unfold readSurfaces Lso.readSurfaces
  congr 1
  funext f
  cases f with
  | nil => rfl
  | cons l ls =>
    dsimp only
    congr 1
    funext r
    cases r with
    | none => rfl
    | some r => exact surfacesLoop_true s ls l r

theorem readBlocks_true {h : Headers D} {s : Solid D} {st : RState} (f : File) : ∀ (x : List (RBlock D) × Bool) (l : Str),
    readBlocks true h s st x l f = Lso.readBlocks h s st x l f := by
  induction f with
  | nil => intro x l; rfl
  | cons l2 ls ih =>
    intro x l
    rw [readBlocks, Lso.readBlocks]
    simp only [ih]

theorem loadLso_true (f : File) : loadLso (D := D) true f = Lso.loadLso f := by
  unfold loadLso loadFront loadModel Lso.loadLso
  simp only [Res.bind_assoc', readVertices_true, skipSection_true, readTetras_true, readSurfaces_true, readBlocks_true, Res.pure_eq, ok_bind]

/-! ## Reading before the end of the file -/

theorem verticesLoop_agree {eol z : Bool} {e : List Nat} {s' : Solid D} {l' : Str} {f' : File} (hl : l' ≠ []) (f : File) : ∀ (line : Str) (s : Solid D),
    readVerticesLoop z e s f = .ok (s', l', f') → verticesLoop eol z e line s f = .ok (s', l', f') := by
  induction f with
  | nil =>
    intro line s h
    cases h
    exact absurd rfl hl
  | cons l ls ih =>
    intro line s h
    rw [readVerticesLoop] at h
    rw [verticesLoop]
    by_cases hc : contains cs!"VRTX" l = true
    · rw [if_pos hc] at h ⊢
      obtain ⟨s1, h1, h2⟩ := bind_eq_ok.1 h
      rw [h1, ok_bind]
      exact ih l s1 h2
    · rw [if_neg hc] at h ⊢
      exact h

theorem readVertices_agree {eol z : Bool} {e : List Nat} {s s' : Solid D} {l' : Str} {f f' : File} (hl : l' ≠ [])
    (h : Lso.readVertices z e s f = .ok (s', l', f')) : readVertices eol z e s f = .ok (s', l', f') := by
  unfold Lso.readVertices at h
  obtain ⟨⟨l, g⟩, h1, h2⟩ := bind_eq_ok.1 h
  obtain ⟨s1, h3, h4⟩ := bind_eq_ok.1 h2
  unfold readVertices
  rw [h1, ok_bind]
  dsimp only
  rw [h3, ok_bind]
  exact verticesLoop_agree hl g l s1 h4

theorem readTetras_agree {eol : Bool} {e : List Nat} {s' : Solid D} {l' : Str} {f' : File} (hl : l' ≠ []) : ∀ (f : File) (s : Solid D) (l : Str),
    Lso.readTetras e s l f = .ok (s', l', f') → readTetras eol e s l f = .ok (s', l', f')
  | [], s, l, h => by
    rw [Lso.readTetras] at h
    obtain ⟨s1, _, h2⟩ := bind_eq_ok.1 h
    cases h2
    exact absurd rfl hl
  | [l2], s, l, h => by
    rw [Lso.readTetras] at h
    obtain ⟨s1, _, h2⟩ := bind_eq_ok.1 h
    cases h2
    exact absurd rfl hl
  | l2 :: l3 :: ls, s, l, h => by
    rw [Lso.readTetras] at h
    obtain ⟨s1, h1, h2⟩ := bind_eq_ok.1 h
    rw [readTetras, h1, ok_bind]
    split at h2
    · rename_i hc
      rw [if_pos hc]
      exact readTetras_agree hl ls s1 l3 h2
    · rename_i hc
      rw [if_neg hc]
      exact h2

theorem surfacesLoop_prefix {s : Solid D} {st' : RState} {l' : Str} {rest' : File} (q : File) (hq : rest'.length < q.length) (p : File) :
    ∀ (x : RState × Mode), readSurfacesLoop s x (p ++ q) = .ok (st', l', rest') →
      ∃ y : RState × Mode, readSurfacesLoop s y q = .ok (st', l', rest') ∧
        ∀ (eol : Bool) (line : Str) (r : File), surfacesLoop eol s line x (p ++ r) = surfacesLoop eol s (p.getLastD line) y r := by
  induction p with
  | nil => intro x h; exact ⟨x, h, fun _ _ _ => rfl⟩
  | cons l p ih =>
    intro x h
    rw [List.cons_append, readSurfacesLoop] at h
    obtain ⟨o, h1, h2⟩ := bind_eq_ok.1 h
    cases o with
    | none =>
      cases h2
      simp at hq
      omega
    | some r =>
      obtain ⟨y, e0, e⟩ := ih r h2
      refine ⟨y, e0, fun eol line g => ?_⟩
      rw [List.cons_append, surfacesLoop, h1, ok_bind]
      dsimp only
      rw [e]
      cases p <;> rfl

/-- What is read from a part of the lines of the surfaces. -/
theorem readSurfaces_prefix {s : Solid D} {st' : RState} {l' : Str} {p q rest' : File} (hq : rest'.length < q.length)
    (h : Lso.readSurfaces s cs!"MODEL" (p ++ q) = .ok (st', l', rest')) :
    ∃ st, ∀ eol, readSurfaces eol s cs!"MODEL" p = surfacesEnd st (keep eol (p.getLastD cs!"MODEL")) := by
  have hmo : startsWith cs!"MODEL" cs!"MODEL" = true := rfl
  cases p with
  | nil =>
    refine ⟨{}, fun eol => ?_⟩
    unfold readSurfaces
    rw [if_pos hmo]
    rfl
  | cons l p =>
    unfold Lso.readSurfaces at h
    rw [if_pos hmo, ok_bind, List.cons_append] at h
    dsimp only at h
    obtain ⟨o, h1, h2⟩ := bind_eq_ok.1 h
    cases o with
    | none =>
      cases h2
      simp at hq
      omega
    | some r =>
      obtain ⟨y, _, e⟩ := surfacesLoop_prefix q hq p r h2
      refine ⟨y.1, fun eol => ?_⟩
      unfold readSurfaces
      rw [if_pos hmo, ok_bind]
      dsimp only
      rw [h1, ok_bind]
      dsimp only
      have := e eol l []
      rw [List.append_nil] at this
      rw [this]
      cases p <;> rfl

theorem surfacesLoop_agree {eol : Bool} {s : Solid D} {st' : RState} {l' : Str} {f' : File} (hl : l' ≠ []) (f : File) : ∀ (line : Str) (x : RState × Mode),
    readSurfacesLoop s x f = .ok (st', l', f') → surfacesLoop eol s line x f = .ok (st', l', f') := by
  induction f with
  | nil =>
    intro line x h
    cases h
    exact absurd rfl hl
  | cons l ls ih =>
    intro line x h
    rw [readSurfacesLoop] at h
    obtain ⟨o, h1, h2⟩ := bind_eq_ok.1 h
    rw [surfacesLoop, h1, ok_bind]
    cases o with
    | none => exact h2
    | some r => exact ih l r h2

theorem readSurfaces_agree {eol : Bool} {s : Solid D} {st' : RState} {l l' : Str} {f f' : File} (hl : l' ≠ [])
    (h : Lso.readSurfaces s l f = .ok (st', l', f')) : readSurfaces eol s l f = .ok (st', l', f') := by
  unfold Lso.readSurfaces at h
  obtain ⟨g, h1, h2⟩ := bind_eq_ok.1 h
  unfold readSurfaces
  rw [h1, ok_bind]
  cases g with
  | nil => cases h2; exact absurd rfl hl
  | cons l ls =>
    dsimp only at h2 ⊢
    obtain ⟨o, h3, h4⟩ := bind_eq_ok.1 h2
    rw [h3, ok_bind]
    cases o with
    | none => exact h4
    | some r => exact surfacesLoop_agree hl ls l r h4

/-! ## Saved solids -/

theorem forall₂_unique {α β : Type} {R : α → β → Prop} (hR : ∀ a b b', R a b → R a b' → b = b') {l : List α} {r r' : List β}
    (h : List.Forall₂ R l r) (h' : List.Forall₂ R l r') : r = r' := by
  induction h generalizing r' with
  | nil => cases h'; rfl
  | cons h1 _ ih =>
    cases h' with
    | cons h2 h3 => rw [ih h3, hR _ _ _ h1 h2]

theorem not_model {m : Model D} {ps : List (Pt D)} {k n : Nat} {as : List Nat} {rs : List (List Nat × Str)} :
    ∀ l ∈ cs!"GOCAD LightTSolid 1" :: (writeHeader m.name ++ (writeCrs {} ++ (vrtxLines k ps ++ sharedLines n as ++ tetraLines rs))),
      startsWith l cs!"MODEL" = false := by
  have hv : ∀ (ps : List (Pt D)) (k : Nat), ∀ l ∈ vrtxLines k ps, startsWith l cs!"MODEL" = false := by
    intro ps
    induction ps with
    | nil => intro k l hl; simp [vrtxLines] at hl
    | cons p ps ih =>
      intro k l hl
      rcases List.mem_cons.1 hl with rfl | hl
      · rfl
      · exact ih _ l hl
  have hs : ∀ (as : List Nat) (k : Nat), ∀ l ∈ sharedLines k as, startsWith l cs!"MODEL" = false := by
    intro as
    induction as with
    | nil => intro k l hl; simp [sharedLines] at hl
    | cons p ps ih =>
      intro k l hl
      rcases List.mem_cons.1 hl with rfl | hl
      · rfl
      · exact ih _ l hl
  have ht : ∀ (rs : List (List Nat × Str)), ∀ l ∈ tetraLines rs, startsWith l cs!"MODEL" = false := by
    intro rs
    induction rs with
    | nil => intro l hl; simp [tetraLines] at hl
    | cons r rs ih =>
      intro l hl
      rcases List.mem_cons.1 hl with rfl | hl
      · rfl
      rcases List.mem_cons.1 hl with rfl | hl
      · rfl
      · exact ih l hl
  intro l hl
  rcases List.mem_cons.1 hl with rfl | hl
  · rfl
  rcases List.mem_append.1 hl with hl | hl
  · unfold writeHeader at hl
    cases hn : m.name with
    | none =>
      rw [hn] at hl
      simp only [List.mem_append, List.mem_singleton, List.not_mem_nil, or_false] at hl
      rcases hl with rfl | rfl <;> rfl
    | some n =>
      rw [hn] at hl
      simp only [List.mem_append, List.mem_singleton] at hl
      rcases hl with (rfl | rfl) | rfl <;> rfl
  rcases List.mem_append.1 hl with hl | hl
  · have : ∀ l ∈ writeCrs {}, startsWith l cs!"MODEL" = false := by decide
    exact this l hl
  rcases List.mem_append.1 hl with hl | hl
  · rcases List.mem_append.1 hl with hl | hl
    · exact hv _ _ l hl
    · exact hs _ _ l hl
  · exact ht _ l hl

/-- A saved solid: what comes before the line `MODEL`, the lines of the surfaces and those of the blocks; and what is read from a file that has
something else after the line `MODEL`. -/
theorem front_save [LawfulNum D] {m : Model D} (h : Loadable m) {sides : Sides.AllSides} {f : File} (hf : saveLso m sides = .ok f) :
    ∃ (pre rl : File) (S : Solid D), f = pre ++ cs!"MODEL" :: (groupsLines m 1 (groups m) ++ (rl ++ [cs!"END"])) ∧
      (∀ l ∈ pre, startsWith l cs!"MODEL" = false) ∧
      List.Forall₂ (fun (b : Block D) l => ∃ side k, l = regionLine b.name side k) m.blocks rl ∧
      (∀ l rest, (∀ kw ∈ [cs!"SURFACE", cs!"TFACE", cs!"TRGL"], startsWith l kw = false) →
        Lso.readSurfaces S cs!"MODEL" (groupsLines m 1 (groups m) ++ l :: rest) = .ok (stateOf m S, l, rest)) ∧
      ∀ (eol : Bool) (g : File), loadFront eol (pre ++ cs!"MODEL" :: g) = .ok (m.name, {}, S, cs!"MODEL", g) := by
  unfold saveLso at hf
  obtain ⟨⟨vs, vl⟩, h1, h2⟩ := bind_eq_ok.1 hf
  obtain ⟨tl, h3, h4⟩ := bind_eq_ok.1 h2
  obtain ⟨st, h5, h6⟩ := bind_eq_ok.1 h4
  obtain ⟨rl, h7, h8⟩ := bind_eq_ok.1 h6
  obtain ⟨ps, hps, hm, e1, e2⟩ := writeVertices_ok h1
  rw [e1] at h3
  obtain ⟨hpl, e3⟩ := writeTetras_ok h.once hm h3
  have h5' : foldM' (writeCollection m) (sstate [] []) (collections m) = .ok st := h5
  obtain ⟨hw, e4⟩ := writeCollections_ok _ h5'
  have hreg := writeRegions_ok h7
  have e5 := (Res.ok.inj h8).symm
  -- the vertices
  have hol := order_length hm
  have hsmall := h.small
  have hpl' : ps.length = m.uniques.length := by rw [← hps.length_eq, mains_length hm]
  obtain ⟨b0, hb0, hne⟩ := h.tetra
  obtain ⟨t0, ts0, hts0⟩ := List.exists_cons_of_ne_nil hne
  have ht4 := h.four b0 hb0 t0 (by rw [hts0]; simp)
  have hrec : records m ≠ [] := by
    intro e
    have : (t0.map (rank m b0.id), b0.name) ∈ records m := List.mem_flatMap.2 ⟨b0, hb0, List.mem_map.2 ⟨t0, by rw [hts0]; simp, rfl⟩⟩
    rw [e] at this; simp at this
  obtain ⟨r, rs, hr⟩ := List.exists_cons_of_ne_nil hrec
  have hpne : ps ≠ [] := by
    intro e
    have hu : m.uniques = [] := by rw [e] at hpl'; exact List.length_eq_zero_iff.1 hpl'.symm
    cases t0 with
    | nil => simp at ht4
    | cons v t0 =>
      have := hpl b0 hb0 (v :: t0) (by rw [hts0]; simp) v (by simp)
      rw [order, hu] at this
      simp [mains, sharedFrom] at this
  obtain ⟨p, ps', hp⟩ := List.exists_cons_of_ne_nil hpne
  -- what precedes the line `MODEL`
  let s1 : Solid D := { points := ps.map Pt.round, ids := List.range' 0 ps.length, nbUnique := ps.length }
  have hshared : ∀ tail : File, ∃ qs, List.Forall₂ (fun e q => (ps.map Pt.round)[e.1]? = some q) (sharedFrom 0 m.uniques) qs ∧
      readVerticesLoop true [] s1 (sharedLines (m.uniques.length + 1) ((sharedFrom 0 m.uniques).map fun e => e.1 + 1) ++ tail) =
        readVerticesLoop true [] { s1 with points := s1.points ++ qs, ids := s1.ids ++ ((sharedFrom 0 m.uniques).map fun e => e.1 + 1).map (· - 1) } tail := by
    intro tail
    obtain ⟨qs, hqs, e6⟩ := readVerticesLoop_shared (D := D) ((sharedFrom 0 m.uniques).map fun e => e.1 + 1) tail s1 (m.uniques.length + 1)
      (by
        intro a ha
        obtain ⟨e, he, rfl⟩ := List.mem_map.1 ha
        have := shared_lt he
        refine ⟨by omega, ?_, by omega⟩
        change e.1 + 1 ≤ ps.length
        omega)
      (by change ps.length ≤ (ps.map Pt.round).length; simp)
    rw [List.forall₂_map_left_iff] at hqs
    exact ⟨qs, hqs, e6⟩
  obtain ⟨qs, hqs, _⟩ := hshared []
  have hql : qs.length = (sharedFrom 0 m.uniques).length := hqs.length_eq.symm
  have hst : st.lines = groupsLines m 1 (groups m) := by rw [e4]; simp [sstate, groups]
  have hreg2 : List.Forall₂ (fun (b : Block D) l => ∃ side k, l = regionLine b.name side k) m.blocks rl := by
    refine hreg.imp ?_
    rintro b l ⟨s, side, k, _, _, _, e⟩
    exact ⟨side, k, e⟩
  have hSp : (solidOf m ps qs).points.length = (order m).length := by simp [solidOf, hol, hpl', hql]
  have hSu : (solidOf m ps qs).nbUnique = m.uniques.length := rfl
  refine ⟨cs!"GOCAD LightTSolid 1" :: (writeHeader m.name ++ (writeCrs {} ++ (vl ++ tl))), rl, solidOf m ps qs, ?_, ?_, hreg2, ?_, ?_⟩
  · rw [e5, hst]; simp
  · rw [e2, e3]
    exact not_model
  · intro l rest hkw
    refine readSurfaces_lines ?_ _ _ _ hkw ?_
    · rw [hSp, hSu]; omega
    · intro g hg
      obtain ⟨c, hc, e⟩ := kept_sub hg
      refine ⟨e ▸ h.collections c hc, fun i hi => ⟨hw g hg i hi, ?_⟩⟩
      exact h.triangles hSu (by omega)
  intro eol g
  obtain ⟨tail, htail⟩ : ∃ tail, tail = tl ++ cs!"MODEL" :: g := ⟨_, rfl⟩
  obtain ⟨qs', hqs2, e6⟩ := hshared tail
  have hqq : qs' = qs := forall₂_unique (fun _ _ _ h1 h2 => Option.some.inj (h1.symm.trans h2)) hqs2 hqs
  rw [hqq] at e6
  generalize hS : solidOf m ps qs = S
  rw [hS] at hSp hSu
  let s2 : Solid D := { S with tetras := [], names := [] }
  have hvert : Lso.readVertices (D := D) true [] {} (vl ++ tail) = readVerticesLoop true [] s2 tail := by
    have ev : vl ++ tail = (cs!"VRTX" ++ spaced (showNat 1 :: p.toks)) :: (vrtxLines 2 ps' ++ (sharedLines (m.uniques.length + 1)
      ((sharedFrom 0 m.uniques).map fun e => e.1 + 1) ++ tail)) := by
      rw [e2, hp]
      simp [vrtxLines]
    unfold Lso.readVertices
    have eg : gotoKeywords [cs!"VRTX", cs!"PVRTX"] (vl ++ tail) = .ok (cs!"VRTX" ++ spaced (showNat 1 :: p.toks), vrtxLines 2 ps' ++
      (sharedLines (m.uniques.length + 1) ((sharedFrom 0 m.uniques).map fun e => e.1 + 1) ++ tail)) := by
      rw [ev, gotoKeywords, if_pos]
      rfl
    rw [eg, ok_bind]
    dsimp only
    rw [readVertex_vrtx, ok_bind, readVerticesLoop_vrtx]
    have es : ({ points := ([] : List (Pt D)) ++ [p.round] ++ ps'.map Pt.round, ids := [] ++ [0] ++ List.range' (0 + 1) ps'.length
                 nbUnique := 0 + 1 + ps'.length } : Solid D) = s1 := by
      simp only [s1, hp]
      have en : 0 + 1 + ps'.length = ps'.length + 1 := by omega
      rw [en]
      simp [List.range'_succ]
    refine (congrArg (fun s => readVerticesLoop (D := D) true [] s (sharedLines (m.uniques.length + 1)
      ((sharedFrom 0 m.uniques).map fun e => e.1 + 1) ++ tail)) es).trans ?_
    rw [e6]
    congr 1
    simp only [s2, ← hS, solidOf, s1, hpl', List.map_map, List.range_eq_range']
    congr 2
  -- the tetrahedra
  have htl : tail = tetraLine r.1 :: (ctetraLine r.2 :: tetraLines rs ++ cs!"MODEL" :: g) := by
    rw [htail, e3, hr]
    simp [tetraLines]
  have hnv : contains cs!"VRTX" (tetraLine r.1) = false := by
    refine contains_false (c := 'V') (by decide) ?_
    unfold tetraLine
    intro hc
    rcases List.mem_append.1 hc with hc | hc
    · revert hc; decide
    · rcases mem_spaced hc with hc | ⟨t, ht, hc⟩
      · revert hc; decide
      · obtain ⟨v, _, rfl⟩ := List.mem_map.1 ht
        exact vee_not_mem_showNat _ hc
  have hvert2 : Lso.readVertices (D := D) true [] {} (vl ++ tail) =
      .ok (s2, tetraLine r.1, ctetraLine r.2 :: tetraLines rs ++ cs!"MODEL" :: g) := by
    rw [hvert, htl, readVerticesLoop, if_neg (by simp [hnv])]
  have htet : Lso.readTetras [] s2 (tetraLine r.1) (ctetraLine r.2 :: tetraLines rs ++ cs!"MODEL" :: g) =
      .ok (S, cs!"MODEL", g) := by
    refine (readTetras_lines cs!"MODEL" _ rfl rs r s2 ?_).trans ?_
    · intro e he
      rw [← hr] at he
      obtain ⟨g1, g2⟩ := records_good h hpl he
      refine ⟨g1, fun v hv => ?_⟩
      have := g2 v hv
      refine ⟨?_, by omega⟩
      change v < S.points.length
      omega
    · rw [← hr]
      simp only [s2, ← hS, solidOf, List.nil_append]
  -- everything
  have ehead : ∃ l rest, vl ++ tail = l :: rest ∧ startsWith l cs!"PROPERTIES" = false ∧ startsWith l (cs!"TETRA_" ++ cs!"PROPERTIES") = false := by
    refine ⟨cs!"VRTX" ++ spaced (showNat 1 :: p.toks), vrtxLines 2 ps' ++ (sharedLines (m.uniques.length + 1)
      ((sharedFrom 0 m.uniques).map fun e => e.1 + 1) ++ tail), ?_, rfl, rfl⟩
    rw [e2, hp]
    simp [vrtxLines]
  obtain ⟨lh, resth, eh, hh1, hh2⟩ := ehead
  have hpr1 : readPropHeader (D := D) [] (vl ++ tail) = .ok ({}, vl ++ tail) := by rw [eh]; exact readPropHeader_none hh1 _
  have hpr2 : readPropHeader (D := D) cs!"TETRA_" (vl ++ tail) = .ok ({}, vl ++ tail) := by rw [eh]; exact readPropHeader_absent hh2
  have hfile : cs!"GOCAD LightTSolid 1" :: (writeHeader m.name ++ (writeCrs {} ++ (vl ++ tl))) ++ cs!"MODEL" :: g =
      cs!"GOCAD LightTSolid 1" :: (writeHeader m.name ++ (writeCrs {} ++ (vl ++ tail))) := by
    rw [htail]; simp
  unfold loadFront
  have hgo : gotoKeyword cs!"GOCAD LightTSolid" (cs!"GOCAD LightTSolid 1" :: (writeHeader m.name ++ (writeCrs {} ++ (vl ++ tl))) ++ cs!"MODEL" :: g) = .ok (cs!"GOCAD LightTSolid 1", writeHeader m.name ++ (writeCrs {} ++ (vl ++ tail))) := by
    rw [hfile]; exact gotoKeyword_here rfl _
  rw [hgo, ok_bind]
  dsimp only
  rw [readHeader_good h.name, ok_bind]
  dsimp only
  rw [readCrs_default, ok_bind]
  dsimp only
  rw [hpr1, ok_bind]
  dsimp only
  rw [hpr2, ok_bind]
  dsimp only
  have hv3 : readVertices (D := D) eol ({} : Crs).zPos ({} : PropHeader D).esizes
      { vattrs := ({} : PropHeader D).names.map fun _ => [], tattrs := ({} : PropHeader D).names.map fun _ => [] } (vl ++ tail) =
      .ok (s2, tetraLine r.1, ctetraLine r.2 :: tetraLines rs ++ cs!"MODEL" :: g) := readVertices_agree (by simp [tetraLine]) hvert2
  rw [hv3, ok_bind]
  dsimp only
  have hsk1 : ∀ g : File, skipSection eol cs!"VERTEX" (tetraLine r.1) g = .ok (tetraLine r.1, g) := by
    intro g; rfl
  rw [hsk1, ok_bind]
  dsimp only
  have ht3 : readTetras eol ({} : PropHeader D).esizes s2 (tetraLine r.1) (ctetraLine r.2 :: tetraLines rs ++ cs!"MODEL" :: g) =
      .ok (S, cs!"MODEL", g) := readTetras_agree (by simp) _ _ _ htet
  rw [ht3, ok_bind]
  dsimp only
  have hsk2 : ∀ g : File, skipSection eol cs!"TETRA" cs!"MODEL" g = .ok (cs!"MODEL", g) := by
    intro g; rfl
  rw [hsk2, ok_bind]
  dsimp only
  rfl

end Verif.Unfinished
