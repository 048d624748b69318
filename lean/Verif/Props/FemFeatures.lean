import Verif.Props.FemValues

/-!
# C34, C56 and C57: discrete features and geometry of FEFLOW files
-/

namespace Verif.Props.FemFeatures

open Verif Verif.Fem Verif.Props.FemRanges Verif.Props.FemValues

variable {D : Type}

/-! ## Lines of a text -/

/-- The lines of a text. -/
def linesOf : Str → List Str
  | [] => [[]]
  | c :: cs =>
    if c = '\n' then [] :: linesOf cs
    else
      match linesOf cs with
      | [] => [[c]]
      | l :: ls => (c :: l) :: ls

/-- The lines that are not blank. -/
def textLines (s : Str) : List Str := (linesOf s).filter fun l => !(split l).isEmpty

theorem linesOf_ne (s : Str) : linesOf s ≠ [] := by
  cases s with
  | nil => simp [linesOf]
  | cons c cs =>
    rw [linesOf]
    split
    · simp
    · cases linesOf cs <;> simp

theorem linesOf_append (a b : Str) : linesOf (a ++ '\n' :: b) = linesOf a ++ linesOf b := by
  induction a with
  | nil => simp [linesOf]
  | cons c cs ih =>
    rw [List.cons_append, linesOf, linesOf, ih]
    split
    · rfl
    · cases h : linesOf cs with
      | nil => exact absurd h (linesOf_ne cs)
      | cons l ls => rfl

theorem linesOf_line {l : Str} (h : '\n' ∉ l) : linesOf l = [l] := by
  induction l with
  | nil => rfl
  | cons c cs ih =>
    have hc : ¬ c = '\n' := fun e => h (by simp [e])
    rw [linesOf, if_neg hc, ih fun e => h (by simp [e])]

/-- A line that is not blank and has no line end. -/
def Line (l : Str) : Prop := '\n' ∉ l ∧ split l ≠ []

theorem textLines_line {l : Str} (h : Line l) : textLines l = [l] := by
  unfold textLines
  rw [linesOf_line h.1]
  cases hs : split l with
  | nil => exact absurd hs h.2
  | cons t ts => simp [hs]

theorem textLines_append (a b : Str) : textLines (a ++ '\n' :: b) = textLines a ++ textLines b := by
  unfold textLines
  rw [linesOf_append, List.filter_append]

theorem textLines_sepLines (ls : List Str) (h : ∀ l ∈ ls, Line l) : ∀ i size : Nat, i + ls.length = size →
    textLines (sepLines size i ls) = ls := by
  induction ls with
  | nil => intro i size _; rfl
  | cons l ls ih =>
    intro i size hs
    rw [sepLines]
    simp only [List.length_cons] at hs
    have hl := h l (by simp)
    cases ls with
    | nil =>
      simp only [List.length_nil] at hs
      rw [if_neg (by omega), sepLines, List.append_nil, List.append_nil, textLines_line hl]
    | cons l' ls =>
      simp only [List.length_cons] at hs ih
      rw [if_pos (by omega), List.append_assoc]
      change textLines (l ++ '\n' :: sepLines size (i + 1) (l' :: ls)) = _
      rw [textLines_append, textLines_line hl, ih (fun x hx => h x (by simp [hx])) (i + 1) size (by omega)]
      rfl

/-! ## Features -/

/-- The facets or edges that become features. -/
def kept (neg : D → Bool) (ts : List (Tagged D)) : List (Tagged D) := ts.filter fun t => !neg t.size

/-- The nodes of a feature, numbered from 1. -/
def nodesOf (t : Tagged D) : List Nat := t.vertices.map (· + 1)

/-- The properties of a group, with sizes `m` and conductivities `c`. -/
def propsOf (sizeName : Str) (m c : List (D × List Nat)) : List (Property D) :=
  ⟨sizeName, m⟩ :: (if c = [] then [] else [⟨cs!"diagres_conductivity", c⟩])

theorem propsOf_eq (sizeName : Str) (m c : List (D × List Nat)) :
    propsOf sizeName m c = ⟨sizeName, m⟩ :: (if c = [] then [] else [⟨CONDUCTIVITY, c⟩]) := rfl

section

variable [DecidableEq D]

theorem push_ne (m : List (D × List Nat)) (k : D) (i : Nat) : push m k i ≠ [] := by
  cases m with
  | nil => simp [push]
  | cons e m =>
    obtain ⟨k', l⟩ := e
    rw [push]
    split <;> simp

theorem addProperty_nil (name : Str) (v : D) (i : Nat) : addProperty [] name v i = propsOf name (push [] v i) [] := rfl

theorem addProperty_size (name : Str) (m c : List (D × List Nat)) (v : D) (i : Nat) :
    addProperty (propsOf name m c) name v i = propsOf name (push m v i) c := by
  unfold addProperty getProperty propsOf
  rw [List.findIdx?_cons]
  simp

theorem addProperty_cond {name : Str} (hn : (name == CONDUCTIVITY) = false) (m c : List (D × List Nat)) (v : D) (i : Nat) :
    addProperty (propsOf name m c) CONDUCTIVITY v i = propsOf name m (push c v i) := by
  rw [propsOf_eq, propsOf_eq]
  unfold addProperty getProperty
  rw [List.findIdx?_cons]
  dsimp only
  rw [hn]
  by_cases hc : c = []
  · subst hc
    simp [push]
  · simp [hc, push_ne]

/-- What is known of a group after some kept items. -/
structure GroupOf (pos : D → Bool) (sizeName : Str) (id : Nat) (ks : List (Tagged D)) (g : Group D) : Prop where
  features : g.features = ks.zipIdx.map fun t => ⟨nodesOf t.1, id + t.2⟩
  ids : g.featureIds = List.range' id ks.length
  props : (ks = [] ∧ g.properties = []) ∨ ∃ m c, g.properties = propsOf sizeName m c ∧ (m.map Prod.fst).Nodup ∧ (c.map Prod.fst).Nodup ∧
    (pairs m).Perm (ks.zipIdx.map fun t => (t.1.size, id + t.2)) ∧
    (pairs c).Perm ((ks.zipIdx.filter fun t => pos t.1.conductivity).map fun t => (t.1.conductivity, id + t.2))

theorem step_ok {neg pos : D → Bool} {name : Str} (hn : (name == CONDUCTIVITY) = false) {id : Nat} {ks : List (Tagged D)} {g : Group D}
    (h : GroupOf pos name id ks g) {t : Tagged D} (ht : neg t.size = false) :
    ∃ g', featureStep neg pos name (g, id + ks.length) t = (g', id + (ks ++ [t]).length) ∧ GroupOf pos name id (ks ++ [t]) g' := by
  have key : ∃ m c, addProperty g.properties name t.size (id + ks.length) = propsOf name m c ∧ (m.map Prod.fst).Nodup ∧
      (c.map Prod.fst).Nodup ∧ (pairs m).Perm ((ks ++ [t]).zipIdx.map fun t => (t.1.size, id + t.2)) ∧
      (pairs c).Perm ((ks.zipIdx.filter fun t => pos t.1.conductivity).map fun t => (t.1.conductivity, id + t.2)) := by
    rcases h.props with ⟨hk, hp⟩ | ⟨m, c, hp, h1, h2, h3, h4⟩
    · subst hk
      refine ⟨push [] t.size id, [], by rw [hp]; exact addProperty_nil _ _ _, nodup_push (by simp) _ _, by simp, ?_, by simp [pairs]⟩
      simp [push, pairs]
    · refine ⟨push m t.size (id + ks.length), c, by rw [hp]; exact addProperty_size _ _ _ _ _, nodup_push h1 _ _, h2, ?_, h4⟩
      refine (pairs_push _ _ _).trans ?_
      rw [List.zipIdx_append, List.map_append]
      refine h3.append ?_
      simp
  obtain ⟨m, c, hp, h1, h2, h3, h4⟩ := key
  have hz : (ks ++ [t]).zipIdx = ks.zipIdx ++ [(t, ks.length)] := by rw [List.zipIdx_append]; simp
  cases hpos : pos t.conductivity with
  | false =>
    refine ⟨⟨g.features ++ [⟨nodesOf t, id + ks.length⟩], g.featureIds ++ [id + ks.length], propsOf name m c⟩, ?_, ?_, ?_,
      Or.inr ⟨m, c, rfl, h1, h2, h3, ?_⟩⟩
    · unfold featureStep
      simp [ht, hpos, hp, nodesOf, Nat.add_assoc]
    · dsimp only
      rw [h.features, hz]
      simp [nodesOf]
    · dsimp only
      rw [h.ids]
      simp [List.range'_concat]
    · rw [hz, List.filter_append]
      simpa [hpos] using h4
  | true =>
    refine ⟨⟨g.features ++ [⟨nodesOf t, id + ks.length⟩], g.featureIds ++ [id + ks.length],
      propsOf name m (push c t.conductivity (id + ks.length))⟩, ?_, ?_, ?_,
      Or.inr ⟨m, push c t.conductivity (id + ks.length), rfl, h1, nodup_push h2 _ _, h3, ?_⟩⟩
    · unfold featureStep
      simp [ht, hpos, hp, nodesOf, addProperty_cond hn, Nat.add_assoc]
    · dsimp only
      rw [h.features, hz]
      simp [nodesOf]
    · dsimp only
      rw [h.ids]
      simp [List.range'_concat]
    · rw [hz, List.filter_append, List.map_append]
      refine (pairs_push _ _ _).trans (h4.append ?_)
      simp [hpos]

theorem fold_kept (neg pos : D → Bool) (name : Str) (ts : List (Tagged D)) : ∀ st : Group D × Nat,
    ts.foldl (featureStep neg pos name) st = (kept neg ts).foldl (featureStep neg pos name) st := by
  induction ts with
  | nil => intro st; rfl
  | cons t ts ih =>
    intro st
    unfold kept at ih ⊢
    rw [List.foldl_cons, List.filter_cons]
    cases h : neg t.size with
    | true =>
      have : featureStep neg pos name st t = st := by unfold featureStep; rw [h]; rfl
      rw [this, ih]
      rfl
    | false =>
      rw [ih]
      rfl

theorem fold_ok {neg pos : D → Bool} {name : Str} (hn : (name == CONDUCTIVITY) = false) {id : Nat} (rest : List (Tagged D)) :
    ∀ (ks : List (Tagged D)) (g : Group D), GroupOf pos name id ks g → (∀ t ∈ rest, neg t.size = false) →
      ∃ g', rest.foldl (featureStep neg pos name) (g, id + ks.length) = (g', id + (ks ++ rest).length) ∧ GroupOf pos name id (ks ++ rest) g' := by
  induction rest with
  | nil => intro ks g h _; exact ⟨g, by simp, by simpa using h⟩
  | cons t rest ih =>
    intro ks g h hr
    obtain ⟨g', h1, h2⟩ := step_ok (neg := neg) hn h (hr t (by simp))
    obtain ⟨g'', h3, h4⟩ := ih (ks ++ [t]) g' h2 fun x hx => hr x (by simp [hx])
    rw [List.append_assoc] at h3 h4
    exact ⟨g'', by rw [List.foldl_cons, h1]; exact h3, h4⟩

/-- A group is built when at least one item is kept. -/
theorem buildGroup_ok {neg pos : D → Bool} {name : Str} (hn : (name == CONDUCTIVITY) = false) (id : Nat) {ts : List (Tagged D)}
    (h : kept neg ts ≠ []) :
    ∃ g, buildGroup neg pos name id ts = .ok (g, id + (kept neg ts).length) ∧ GroupOf pos name id (kept neg ts) g := by
  have h0 : GroupOf pos name id [] ({} : Group D) := ⟨rfl, rfl, Or.inl ⟨rfl, rfl⟩⟩
  obtain ⟨g, h1, h2⟩ := fold_ok (neg := neg) hn (kept neg ts) [] {} h0 (by
    intro t ht
    unfold kept at ht
    simpa using (List.mem_filter.1 ht).2)
  rw [List.nil_append] at h1 h2
  refine ⟨g, ?_, h2⟩
  unfold buildGroup
  have hf : g.features ≠ [] := by
    rw [h2.features]
    intro e
    rw [List.map_eq_nil_iff, List.zipIdx_eq_nil_iff] at e
    exact h e
  rw [fold_kept]
  rw [List.length_nil, Nat.add_zero] at h1
  dsimp only
  rw [h1]
  cases hg : g.features with
  | nil => exact absurd hg hf
  | cons a as => simp [hg]

theorem buildGroup_throw {neg pos : D → Bool} {name : Str} {id : Nat} {ts : List (Tagged D)} (h : kept neg ts = []) :
    buildGroup neg pos name id ts = .throw := by
  unfold buildGroup
  rw [fold_kept, h]
  rfl

/-- The kept items of an optional list. -/
def keptOf (neg : D → Bool) (ts : Option (List (Tagged D))) : List (Tagged D) := kept neg (ts.getD [])

/-- What is known of an optional group. -/
def OptGroup (pos : D → Bool) (name : Str) (id : Nat) (ks : List (Tagged D)) (g : Option (Group D)) : Prop :=
  match g with
  | none => ks = []
  | some g => ks ≠ [] ∧ GroupOf pos name id ks g

theorem optGroup_ok {neg pos : D → Bool} {name : Str} (hn : (name == CONDUCTIVITY) = false) (id : Nat) {ts : Option (List (Tagged D))}
    (h : ∀ l, ts = some l → kept neg l ≠ []) :
    ∃ g, optGroup neg pos name id ts = .ok (g, id + (keptOf neg ts).length) ∧ OptGroup pos name id (keptOf neg ts) g := by
  cases ts with
  | none => exact ⟨none, rfl, rfl⟩
  | some l =>
    have hk := h l rfl
    obtain ⟨g, e1, e2⟩ := buildGroup_ok (neg := neg) (pos := pos) hn id hk
    exact ⟨some g, by simp [optGroup, e1, keptOf], hk, e2⟩

theorem buildFeatures_ok {neg pos : D → Bool} {m : Mesh D} (h2 : ∀ ts, m.facets = some ts → kept neg ts ≠ [])
    (h1 : ∀ ts, m.edges = some ts → kept neg ts ≠ []) :
    ∃ fs, buildFeatures neg pos m = .ok fs ∧ OptGroup pos cs!"diagres_discontinuity_aperture" 1 (keptOf neg m.facets) fs.group2 ∧
      OptGroup pos cs!"diagres_conduit_area" (1 + (keptOf neg m.facets).length) (keptOf neg m.edges) fs.group1 := by
  obtain ⟨g2, e1, e2⟩ := optGroup_ok (neg := neg) (pos := pos) (name := APERTURE) rfl 1 h2
  obtain ⟨g1, e3, e4⟩ := optGroup_ok (neg := neg) (pos := pos) (name := CONDUIT_AREA) rfl (1 + (keptOf neg m.facets).length) h1
  refine ⟨⟨g2, g1⟩, ?_, e2, e4⟩
  unfold buildFeatures
  rw [e1, Res.ok_bind, e3]
  rfl

/-- **C34: refusal.**  When facets or edges have the attribute and none of them becomes a feature, nothing is written. -/
theorem no_feature_throws {neg pos : D → Bool} {m : Mesh D} {ts : List (Tagged D)} (h : m.facets = some ts) (hk : kept neg ts = []) :
    buildFeatures neg pos m = .throw := by
  unfold buildFeatures
  rw [h]
  unfold optGroup
  dsimp only
  rw [buildGroup_throw hk]
  rfl

theorem featuresOf_eq {pos : D → Bool} {name : Str} {id : Nat} {ks : List (Tagged D)} {g : Option (Group D)} (h : OptGroup pos name id ks g) :
    featuresOf g = ks.zipIdx.map fun t => ⟨nodesOf t.1, id + t.2⟩ := by
  cases g with
  | none => have : ks = [] := h; subst this; rfl
  | some g => exact h.2.features

theorem zipIdx_shift {α : Type} (l : List α) (k : Nat) : l.zipIdx k = l.zipIdx.map fun t => (t.1, k + t.2) := by
  rw [List.zipIdx_eq_map_add]

/-- **C34: numbers.**  The features are the kept facets, then the kept edges, numbered from 1 in that order. -/
theorem features_numbered {neg pos : D → Bool} {m : Mesh D} {fs : Features D}
    (h2 : OptGroup pos APERTURE 1 (keptOf neg m.facets) fs.group2)
    (h1 : OptGroup pos CONDUIT_AREA (1 + (keptOf neg m.facets).length) (keptOf neg m.edges) fs.group1) :
    featuresOf fs.group2 ++ featuresOf fs.group1 =
      (keptOf neg m.facets ++ keptOf neg m.edges).zipIdx.map fun t => ⟨nodesOf t.1, 1 + t.2⟩ := by
  rw [featuresOf_eq h2, featuresOf_eq h1, List.zipIdx_append, List.map_append, Nat.zero_add,
    zipIdx_shift (keptOf neg m.edges) (keptOf neg m.facets).length, List.map_map]
  congr 1
  apply List.map_congr_left
  intro t _
  simp [Nat.add_assoc]

end

/-! ## The sections -/

theorem nl_not_mem {t : Str} (h : IsTok t) : '\n' ∉ t := by
  intro hm
  have := h.2 _ hm
  exact absurd this (by decide)

/-- The content of an incidence line: the number of nodes, then the nodes. -/
def readIncidence (l : Str) : Option (List Nat) :=
  match (split (l.map fun c => if c = ',' then ' ' else c)).mapM parseNat with
  | some (n :: nodes) => if n = nodes.length then some nodes else none
  | _ => none

theorem map_comma {s : Str} (h : ',' ∉ s) : s.map (fun c => if c = ',' then ' ' else c) = s := by
  induction s with
  | nil => rfl
  | cons c cs ih =>
    have : ¬ c = ',' := fun e => h (by simp [e])
    rw [List.map_cons, if_neg this, ih fun e => h (by simp [e])]

theorem mapM_parseNat (ns : List Nat) : (ns.map showNat).mapM parseNat = some ns := by
  induction ns with
  | nil => rfl
  | cons n ns ih => simp [List.mapM_cons, parseNat_showNat, ih]

theorem readIncidence_line (f : Feature) : readIncidence (incidenceLine f) = some f.nodes := by
  have key : ∀ (ns : List Nat) (n : Nat), split ((showNat n ++ ns.flatMap fun n => cs!", " ++ showNat n).map fun c => if c = ',' then ' ' else c) =
      (n :: ns).map showNat := by
    intro ns
    induction ns with
    | nil =>
      intro n
      rw [List.flatMap_nil, List.append_nil, map_comma (comma_not_mem_showNat n), split_tok (isTok_showNat n)]
      rfl
    | cons x ns ih =>
      intro n
      have e : showNat n ++ (x :: ns).flatMap (fun n => cs!", " ++ showNat n) =
          showNat n ++ ([',', ' '] ++ (showNat x ++ ns.flatMap fun n => cs!", " ++ showNat n)) := by simp
      rw [e, List.map_append, map_comma (comma_not_mem_showNat n), List.map_append]
      rw [show (cs!", ").map (fun c => if c = ',' then ' ' else c) = cs!"  " from rfl, List.cons_append, List.cons_append, List.nil_append]
      rw [split_tok_append (isTok_showNat n), split_cons_ws rfl, ih x]
      rfl
  unfold readIncidence
  have e : (incidenceLine f).map (fun c => if c = ',' then ' ' else c) = ' ' :: ' ' :: ' ' :: ' ' :: ' ' ::
      (showNat f.nodes.length ++ f.nodes.flatMap fun n => cs!", " ++ showNat n).map fun c => if c = ',' then ' ' else c := by
    unfold incidenceLine
    simp
  rw [e, split_cons_ws rfl, split_cons_ws rfl, split_cons_ws rfl, split_cons_ws rfl, split_cons_ws rfl, key, mapM_parseNat]
  simp

theorem line_incidence (f : Feature) : Line (incidenceLine f) := by
  constructor
  · unfold incidenceLine
    intro h
    simp only [List.append_assoc, List.mem_append, List.mem_flatMap] at h
    rcases h with h | h | ⟨n, _, h | h⟩
    · revert h; decide
    · exact nl_not_mem (isTok_showNat _) h
    · revert h; decide
    · exact nl_not_mem (isTok_showNat _) h
  · intro h
    have e : incidenceLine f = ' ' :: ' ' :: ' ' :: ' ' :: ' ' :: (showNat f.nodes.length ++ f.nodes.flatMap fun n => cs!", " ++ showNat n) := by
      simp [incidenceLine]
    rw [e, split_cons_ws rfl, split_cons_ws rfl, split_cons_ws rfl, split_cons_ws rfl, split_cons_ws rfl] at h
    obtain ⟨c, r, hd, hc⟩ := showNat_cons f.nodes.length
    rw [hc, List.cons_append] at h
    have := (isTok_showNat f.nodes.length).2 (digitChar c) (by rw [hc]; simp)
    exact split_ne_nil this _ h

/-- **C34: incidence.**  Line number `k` of the incidence section has the nodes of the feature number `k`. -/
theorem incidence_lines (fs : Features D) :
    (textLines (incidenceText fs)).map readIncidence = (featuresOf fs.group2 ++ featuresOf fs.group1).map fun f => some f.nodes := by
  unfold incidenceText
  dsimp only
  rw [List.append_assoc, List.singleton_append]
  rw [textLines_append, textLines_sepLines _ (by
      intro l hl; obtain ⟨f, _, rfl⟩ := List.mem_map.1 hl; exact line_incidence f) 0 _ (by simp),
    textLines_sepLines _ (by intro l hl; obtain ⟨f, _, rfl⟩ := List.mem_map.1 hl; exact line_incidence f) 0 _ (by simp),
    List.map_append, List.map_append]
  congr 1 <;>
  · rw [List.map_map]
    apply List.map_congr_left
    intro f _
    exact readIncidence_line f

/-- **C34: kinds.**  Line number `k` of the signatures is that of a facet or of an edge as the feature number `k` is. -/
theorem signature_lines (fs : Features D) :
    (textLines (signaturesText fs)).map split =
      (featuresOf fs.group2).map (fun _ => [cs!"c2d3,darcy"]) ++ (featuresOf fs.group1).map fun _ => [cs!"c1d2,darcy"] := by
  unfold signaturesText
  dsimp only
  rw [List.append_assoc, List.singleton_append (l := sepLines _ _ _)]
  have hline : ∀ (s : Str) (n : Nat), Line (cs!" " ++ s) → ∀ l ∈ List.replicate n (cs!" " ++ s), Line l := by
    intro s n h l hl
    rw [(List.mem_replicate.1 hl).2]
    exact h
  rw [textLines_append, textLines_sepLines _ (hline _ _ ⟨by decide, by decide⟩) 0 _ (by simp),
    textLines_sepLines _ (hline _ _ ⟨by decide, by decide⟩) 0 _ (by simp)]
  simp only [List.map_append, List.map_replicate, List.map_const']
  rfl

theorem chunk_toks {max : Nat} {ids : List Nat} : ∀ l ∈ formatRangeChunks max ids, '\n' ∉ l := by
  have app : ∀ (st : List Str × Str) (s p : Nat), (∀ l ∈ st.1 ++ [st.2], '\n' ∉ l) →
      ∀ l ∈ (appendValue max st (token s p)).1 ++ [(appendValue max st (token s p)).2], '\n' ∉ l := by
    intro st s p h
    have ht := nl_not_mem (isTok_token s p)
    unfold appendValue
    by_cases hc : st.2.length + (token s p).length + 1 > max
    · simp only [hc, if_true, List.nil_append]
      intro l hl
      rcases List.mem_append.1 hl with h' | h'
      · exact h l h'
      · rw [List.mem_singleton] at h'; rw [h']; simpa using ht
    · simp only [hc, if_false]
      intro l hl
      rcases List.mem_append.1 hl with h' | h'
      · exact h l (List.mem_append_left _ h')
      · rw [List.mem_singleton] at h'
        rw [h']
        have := h st.2 (by simp)
        split <;> simp [this, ht]
  have loop : ∀ (es : List Nat) (st : ChunkState), (∀ l ∈ st.results ++ [st.current], '\n' ∉ l) →
      ∀ l ∈ finish max (es.foldl (chunkStep max) st), '\n' ∉ l := by
    intro es
    induction es with
    | nil =>
      intro st h l hl
      have := app (st.results, st.current) st.start st.prev h
      rw [List.foldl_nil] at hl
      unfold finish at hl
      dsimp only at hl
      split at hl
      · exact this l (List.mem_append_left _ hl)
      · exact this l hl
    | cons e es ih =>
      intro st h
      rw [List.foldl_cons]
      unfold chunkStep
      split
      · exact ih _ h
      · exact ih ⟨_, _, e, e⟩ (app (st.results, st.current) _ _ h)
  cases ids with
  | nil => simp [formatRangeChunks]
  | cons e es => exact loop es ⟨[], [], e, e⟩ (by simp)

/-- A line of ranges has at least a range. -/
theorem chunk_lines {ids : List Nat} (h : ∀ i ∈ ids, i < NO_ID) : ∀ l ∈ formatRangeChunks CHUNK_SIZE ids, Line l := by
  intro l hl
  have hW : ∀ i ∈ ids, i < W := fun i hi => by have := h i hi; unfold NO_ID at this; unfold W; omega
  refine ⟨chunk_toks l hl, ?_⟩
  have hne := lines_not_empty (by decide : 22 ≤ CHUNK_SIZE) ids hW l hl
  -- the lines begin with a token
  have app : ∀ (st : List Str × Str) (s p : Nat), (∀ l ∈ st.1 ++ [st.2], l = [] ∨ split l ≠ []) →
      ∀ l ∈ (appendValue CHUNK_SIZE st (token s p)).1 ++ [(appendValue CHUNK_SIZE st (token s p)).2], l = [] ∨ split l ≠ [] := by
    intro st s p h
    have ht := isTok_token s p
    unfold appendValue
    by_cases hc : st.2.length + (token s p).length + 1 > CHUNK_SIZE
    · simp only [hc, if_true, List.nil_append]
      intro l hl
      rcases List.mem_append.1 hl with h' | h'
      · exact h l h'
      · rw [List.mem_singleton] at h'; rw [h']; right; simp [split_tok ht]
    · simp only [hc, if_false]
      intro l hl
      rcases List.mem_append.1 hl with h' | h'
      · exact h l (List.mem_append_left _ h')
      · rw [List.mem_singleton] at h'
        rw [h']
        right
        split
        · simp [split_tok ht]
        · rw [List.append_assoc]
          change split (st.2 ++ ' ' :: token s p) ≠ []
          rw [split_append_space, split_tok ht]
          simp
  have loop : ∀ (es : List Nat) (st : ChunkState), (∀ l ∈ st.results ++ [st.current], l = [] ∨ split l ≠ []) →
      ∀ l ∈ finish CHUNK_SIZE (es.foldl (chunkStep CHUNK_SIZE) st), l = [] ∨ split l ≠ [] := by
    intro es
    induction es with
    | nil =>
      intro st h l hl
      have := app (st.results, st.current) st.start st.prev h
      rw [List.foldl_nil] at hl
      unfold finish at hl
      dsimp only at hl
      split at hl
      · exact this l (List.mem_append_left _ hl)
      · exact this l hl
    | cons e es ih =>
      intro st h
      rw [List.foldl_cons]
      unfold chunkStep
      split
      · exact ih _ h
      · exact ih ⟨_, _, e, e⟩ (app (st.results, st.current) _ _ h)
  have : l = [] ∨ split l ≠ [] := by
    cases ids with
    | nil => simp [formatRangeChunks] at hl
    | cons e es => exact loop es ⟨[], [], e, e⟩ (by simp) l hl
  exact this.resolve_left hne

/-- **C34: groups.**  The ranges of a group denote the numbers of its features. -/
theorem group_ranges [DecidableEq D] {pos : D → Bool} {name : Str} {id : Nat} {ks : List (Tagged D)} {g : Group D} (h : GroupOf pos name id ks g)
    (hid : id + ks.length < NO_ID) : readRanges (textLines (groupText g)) = some (g.features.map Feature.id) := by
  have hids : ∀ i ∈ g.featureIds, i < NO_ID := by
    rw [h.ids]
    intro i hi
    rw [List.mem_range'_1] at hi
    omega
  unfold groupText
  dsimp only
  rw [textLines_sepLines _ (chunk_lines hids) 0 _ (by simp), ranges_decoded _ _ hids, h.ids, h.features, List.map_map]
  congr 1
  apply List.ext_getElem?
  intro i
  by_cases hi : i < ks.length
  · simp [List.getElem?_range' hi, hi]
  · simp [hi]

/-! ## Materials -/

section

variable [DecidableEq D]

/-- Adding an entry of the second map, `combine_maps` lines 1085-1094. -/
def addEntry (m : List (D × List Nat)) (e : D × List Nat) : List (D × List Nat) :=
  if m.any (fun x => x.1 = e.1) then m.map (fun x => if x.1 = e.1 then (x.1, x.2 ++ e.2) else x) else m ++ [e]

theorem addEntry_ok {m : List (D × List Nat)} (h : (m.map Prod.fst).Nodup) (e : D × List Nat) :
    ((addEntry m e).map Prod.fst).Nodup ∧ (pairs (addEntry m e)).Perm (pairs m ++ e.2.map fun i => (e.1, i)) := by
  unfold addEntry
  split
  · rename_i ha
    constructor
    · have : (m.map fun x => if x.1 = e.1 then (x.1, x.2 ++ e.2) else x).map Prod.fst = m.map Prod.fst := by
        rw [List.map_map]
        apply List.map_congr_left
        intro x _
        simp only [Function.comp]
        split <;> rfl
      rw [this]
      exact h
    · have same : ∀ m : List (D × List Nat), e.1 ∉ m.map Prod.fst → (m.map fun x => if x.1 = e.1 then (x.1, x.2 ++ e.2) else x) = m := by
        intro m hm
        conv => rhs; rw [← List.map_id m]
        apply List.map_congr_left
        intro x hx
        have : ¬ x.1 = e.1 := fun he => hm (he ▸ List.mem_map_of_mem hx)
        rw [if_neg this]
        rfl
      induction m with
      | nil => simp at ha
      | cons x m ih =>
        rw [List.map_cons, List.nodup_cons] at h
        rw [List.map_cons]
        by_cases hx : x.1 = e.1
        · rw [if_pos hx, same m (by rw [← hx]; exact h.1)]
          unfold pairs
          simp only [List.flatMap_cons, List.map_append, List.append_assoc]
          rw [hx]
          exact List.Perm.append_left _ List.perm_append_comm
        · rw [if_neg hx]
          have : m.any (fun x => x.1 = e.1) = true := by simpa [hx] using ha
          have := ih h.2 this
          unfold pairs at this ⊢
          simp only [List.flatMap_cons, List.append_assoc]
          exact List.Perm.append_left _ this
  · rename_i ha
    constructor
    · rw [List.map_append, List.nodup_append]
      refine ⟨h, by simp, ?_⟩
      intro a ham b hb hab
      simp only [List.map_cons, List.map_nil, List.mem_singleton] at hb
      rw [hab, hb, List.mem_map] at ham
      obtain ⟨x, hx, hxe⟩ := ham
      exact ha (by rw [List.any_eq_true]; exact ⟨x, hx, by simp [hxe]⟩)
    · simp [pairs]

theorem combineMaps_ok (m2 : List (D × List Nat)) : ∀ {m1 : List (D × List Nat)}, (m1.map Prod.fst).Nodup →
    ((combineMaps m1 m2).map Prod.fst).Nodup ∧ (pairs (combineMaps m1 m2)).Perm (pairs m1 ++ pairs m2) := by
  induction m2 with
  | nil => intro m1 h; exact ⟨h, by simp [combineMaps, pairs]⟩
  | cons e m2 ih =>
    intro m1 h
    obtain ⟨h1, h2⟩ := addEntry_ok h e
    obtain ⟨i1, i2⟩ := ih h1
    refine ⟨i1, i2.trans ((h2.append_right _).trans ?_)⟩
    simp [pairs]

/-- The values of a property in an optional group. -/
theorem lookup_size {pos : D → Bool} {name : Str} {id : Nat} {ks : List (Tagged D)} {g : Group D} (hk : ks ≠ []) (h : GroupOf pos name id ks g) :
    getProperty g.properties name = some 0 ∧ ∃ m : List (D × List Nat), propertyValues (some g) 0 = .ok m ∧ (m.map Prod.fst).Nodup ∧
      (pairs m).Perm (ks.zipIdx.map fun t => (t.1.size, id + t.2)) := by
  rcases h.props with ⟨hk', _⟩ | ⟨m, c, hp, h1, h2, h3, h4⟩
  · exact absurd hk' hk
  · refine ⟨?_, m, ?_, h1, h3⟩
    · rw [hp]
      unfold getProperty propsOf
      rw [List.findIdx?_cons]
      simp
    · unfold propertyValues
      dsimp only
      rw [hp]
      rfl

theorem lookup_cond {pos : D → Bool} {name : Str} (hn : (name == CONDUCTIVITY) = false) {id : Nat} {ks : List (Tagged D)} {g : Group D}
    (hk : ks ≠ []) (h : GroupOf pos name id ks g) :
    ((ks.filter fun t => pos t.conductivity) = [] ∧ getProperty g.properties CONDUCTIVITY = none) ∨
    (getProperty g.properties CONDUCTIVITY = some 1 ∧ ∃ c : List (D × List Nat), propertyValues (some g) 1 = .ok c ∧ (c.map Prod.fst).Nodup ∧
      (pairs c).Perm ((ks.zipIdx.filter fun t => pos t.1.conductivity).map fun t => (t.1.conductivity, id + t.2))) := by
  rcases h.props with ⟨hk', _⟩ | ⟨m, c, hp, h1, h2, h3, h4⟩
  · exact absurd hk' hk
  · by_cases hc : c = []
    · left
      constructor
      · subst hc
        have h5 : (ks.zipIdx.filter fun t => pos t.1.conductivity) = [] := by
          have := h4.symm.eq_nil
          rw [List.map_eq_nil_iff] at this
          exact this
        rw [List.filter_eq_nil_iff] at h5 ⊢
        intro t ht
        obtain ⟨i, hi, rfl⟩ := List.getElem_of_mem ht
        have := h5 (ks[i], i) (by
          rw [List.mem_zipIdx_iff_getElem?]
          simp [hi])
        simpa using this
      · rw [hp]
        unfold getProperty propsOf
        rw [List.findIdx?_cons]
        dsimp only
        rw [hn, hc]
        simp
    · right
      refine ⟨?_, c, ?_, h2, h4⟩
      · rw [hp]
        rw [propsOf_eq]
        unfold getProperty
        rw [List.findIdx?_cons]
        dsimp only
        rw [hn, if_neg hc]
        simp
      · unfold propertyValues
        dsimp only
        rw [hp]
        simp [propsOf, hc]

/-- A map has these pairs, each value once. -/
def Holds (m : Option (List (D × List Nat))) (l : List (D × Nat)) : Prop :=
  match m with
  | none => l = []
  | some m => (m.map Prod.fst).Nodup ∧ (pairs m).Perm l

theorem joinValues_ok {both : Nat → Nat → Nat} {fs : Features D} {i2 i1 : Option Nat} {l2 l1 : List (D × Nat)}
    (h2 : (i2 = none ∧ l2 = []) ∨ ∃ i m, i2 = some i ∧ propertyValues fs.group2 i = .ok m ∧ (m.map Prod.fst).Nodup ∧ (pairs m).Perm l2)
    (h1 : (i1 = none ∧ l1 = []) ∨ ∃ j m, i1 = some j ∧ propertyValues fs.group1 j = .ok m ∧ (m.map Prod.fst).Nodup ∧ (pairs m).Perm l1)
    (hb : ∀ i j, i2 = some i → i1 = some j → both i j = j) :
    ∃ m, joinValues both fs i2 i1 = .ok m ∧ Holds m (l2 ++ l1) := by
  rcases h2 with ⟨rfl, rfl⟩ | ⟨i, m2, rfl, e2, n2, p2⟩ <;> rcases h1 with ⟨rfl, rfl⟩ | ⟨j, m1, rfl, e1, n1, p1⟩
  · exact ⟨none, rfl, rfl⟩
  · exact ⟨some m1, by simp [joinValues, e1], n1, by simpa using p1⟩
  · exact ⟨some m2, by simp [joinValues, e2], n2, by simpa using p2⟩
  · obtain ⟨h1, h2⟩ := combineMaps_ok m1 n2
    exact ⟨some (combineMaps m2 m1), by simp [joinValues, e2, hb i j rfl rfl, e1], h1, h2.trans (p2.append p1)⟩

/-- **C34: materials.**  The sections of areas and conductivities give each feature, by its number, its own area, and its own
conductivity when it is positive. -/
theorem materials_ok {neg pos : D → Bool} {m : Mesh D} {fs : Features D}
    (h2 : OptGroup pos APERTURE 1 (keptOf neg m.facets) fs.group2)
    (h1 : OptGroup pos CONDUIT_AREA (1 + (keptOf neg m.facets).length) (keptOf neg m.edges) fs.group1) :
    ∃ area cond, materials fs = .ok (area, cond) ∧
      Holds area ((keptOf neg m.facets ++ keptOf neg m.edges).zipIdx.map fun t => (t.1.size, 1 + t.2)) ∧
      Holds cond (((keptOf neg m.facets ++ keptOf neg m.edges).zipIdx.filter fun t => pos t.1.conductivity).map fun t =>
        (t.1.conductivity, 1 + t.2)) := by
  have size : ∀ {name : Str} {id : Nat} {ks : List (Tagged D)} {g : Option (Group D)}, OptGroup pos name id ks g →
      (propertyIndex g name = none ∧ ks.zipIdx.map (fun t => (t.1.size, id + t.2)) = []) ∨
      ∃ i m, propertyIndex g name = some i ∧ i = 0 ∧ propertyValues g i = .ok m ∧ (m.map Prod.fst).Nodup ∧
        (pairs m).Perm (ks.zipIdx.map fun t => (t.1.size, id + t.2)) := by
    intro name id ks g h
    cases g with
    | none => left; have : ks = [] := h; subst this; exact ⟨rfl, rfl⟩
    | some g =>
      right
      obtain ⟨e1, m, e2, e3, e4⟩ := lookup_size h.1 h.2
      exact ⟨0, m, e1, rfl, e2, e3, e4⟩
  have cond : ∀ {name : Str} {id : Nat} {ks : List (Tagged D)} {g : Option (Group D)}, (name == CONDUCTIVITY) = false →
      OptGroup pos name id ks g →
      (propertyIndex g CONDUCTIVITY = none ∧
        (ks.zipIdx.filter fun t => pos t.1.conductivity).map (fun t => (t.1.conductivity, id + t.2)) = []) ∨
      ∃ i m, propertyIndex g CONDUCTIVITY = some i ∧ propertyValues g i = .ok m ∧ (m.map Prod.fst).Nodup ∧
        (pairs m).Perm ((ks.zipIdx.filter fun t => pos t.1.conductivity).map fun t => (t.1.conductivity, id + t.2)) := by
    intro name id ks g hn h
    cases g with
    | none => left; have : ks = [] := h; subst this; exact ⟨rfl, rfl⟩
    | some g =>
      rcases lookup_cond hn h.1 h.2 with ⟨e1, e2⟩ | ⟨e1, m, e2, e3, e4⟩
      · left
        refine ⟨e2, ?_⟩
        rw [List.map_eq_nil_iff, List.filter_eq_nil_iff]
        rw [List.filter_eq_nil_iff] at e1
        intro t ht
        exact e1 t.1 (List.fst_mem_of_mem_zipIdx ht)
      · exact Or.inr ⟨1, m, e1, e2, e3, e4⟩
  have shift : ∀ (f : Tagged D → D) (p : Tagged D × Nat → Bool), (∀ t k, p (t, k) = p (t, 0)) →
      ((keptOf neg m.facets ++ keptOf neg m.edges).zipIdx.filter p).map (fun t => (f t.1, 1 + t.2)) =
      ((keptOf neg m.facets).zipIdx.filter p).map (fun t => (f t.1, 1 + t.2)) ++
      ((keptOf neg m.edges).zipIdx.filter p).map fun t => (f t.1, 1 + (keptOf neg m.facets).length + t.2) := by
    intro f p hp
    rw [List.zipIdx_append, List.filter_append, List.map_append, Nat.zero_add,
      zipIdx_shift (keptOf neg m.edges) (keptOf neg m.facets).length, List.filter_map, List.map_map]
    congr 1
    have : (p ∘ fun t : Tagged D × Nat => (t.1, (keptOf neg m.facets).length + t.2)) = p := by
      funext t
      obtain ⟨t, k⟩ := t
      simp only [Function.comp]
      rw [hp, ← hp t k]
    rw [this]
    apply List.map_congr_left
    intro t _
    simp [Nat.add_assoc]
  have shiftAll := shift (fun t => t.size) (fun _ => true) (fun _ _ => rfl)
  simp only [List.filter_true] at shiftAll
  have shiftCond := shift (fun t => t.conductivity) (fun t => pos t.1.conductivity) (fun _ _ => rfl)
  rw [shiftAll, shiftCond]
  have s2 := size h2
  have s1 := size h1
  obtain ⟨area, a1, a2⟩ := joinValues_ok (both := fun i _ => i) (fs := fs)
    (i2 := propertyIndex fs.group2 APERTURE) (i1 := propertyIndex fs.group1 CONDUIT_AREA)
    (s2.imp (fun h => h) fun ⟨i, m, e1, _, e⟩ => ⟨i, m, e1, e⟩) (s1.imp (fun h => h) fun ⟨i, m, e1, _, e⟩ => ⟨i, m, e1, e⟩) (by
      intro i j hi hj
      rcases s2 with ⟨e, _⟩ | ⟨i', _, e, rfl, _⟩
      · rw [e] at hi; cases hi
      · rcases s1 with ⟨e', _⟩ | ⟨j', _, e', rfl, _⟩
        · rw [e'] at hj; cases hj
        · rw [e] at hi; rw [e'] at hj
          cases hi; cases hj; rfl)
  obtain ⟨cnd, c1, c2⟩ := joinValues_ok (both := fun _ j => j) (fs := fs)
    (i2 := propertyIndex fs.group2 CONDUCTIVITY) (i1 := propertyIndex fs.group1 CONDUCTIVITY)
    (cond rfl h2) (cond rfl h1) (fun _ _ _ _ => rfl)
  refine ⟨area, cnd, ?_, a2, c2⟩
  unfold materials
  rw [a1, Res.ok_bind, c1]
  rfl

end

/-- Facets and edges. -/
def mesh2 : Mesh Int :=
  { mesh1 with
    facets := some [⟨[0, 1, 2], 5, 3⟩, ⟨[0, 1, 3], -1, 3⟩, ⟨[0, 2, 3], 5, -1⟩]
    edges := some [⟨[0, 1], 7, 3⟩, ⟨[1, 2], 5, -1⟩] }

def features2 : Features Int where
  group2 := some ⟨[⟨[1, 2, 3], 1⟩, ⟨[1, 3, 4], 2⟩], [1, 2], [⟨cs!"diagres_discontinuity_aperture", [(5, [1, 2])]⟩, ⟨cs!"diagres_conductivity", [(3, [1])]⟩]⟩
  group1 := some ⟨[⟨[1, 2], 3⟩, ⟨[2, 3], 4⟩], [3, 4], [⟨cs!"diagres_conduit_area", [(7, [3]), (5, [4])]⟩, ⟨cs!"diagres_conductivity", [(3, [3])]⟩]⟩

example : buildFeatures (fun v : Int => decide (v < 0)) (fun v => decide (0 < v)) mesh2 = .ok features2 := by decide +kernel

example : materials features2 = .ok (some [(5, [1, 2, 4]), (7, [3])], some [(3, [1, 3])]) := by decide +kernel

example : textLines (incidenceText features2) =
    [cs!"     3, 1, 2, 3", cs!"     3, 1, 3, 4", cs!"     2, 1, 2", cs!"     2, 2, 3"] := by decide +kernel

/-! ## C57: text of the materials -/

/-- **C57 when the features of each value fit in one line**: the lines of a material denote exactly the content of its map. -/
theorem material_lines_partial [Num D] [LawfulNum D] (max : Nat) (es : List (D × List Nat))
    (h1 : ∀ e ∈ es, ∃ c, formatRangeChunks max e.2 = [c]) (hid : ∀ e ∈ es, ∀ i ∈ e.2, i < NO_ID) :
    readLines (textLines (materialText max es)) = some ((pairs es).map fun p => (Num.fmt p.1, p.2)) := by
  have line : ∀ (v : D) (c : Str), split (List.replicate 14 ' ' ++ Num.fmt v ++ cs!" " ++ c) = Num.fmt v :: split c := by
    intro v c
    rw [List.append_assoc, List.append_assoc, List.singleton_append]
    have : ∀ (n : Nat) (s : Str), split (List.replicate n ' ' ++ s) = split s := by
      intro n s
      induction n with
      | zero => rfl
      | succ n ih => rw [List.replicate_succ, List.cons_append, split_cons_ws rfl, ih]
    rw [this, split_tok_append (LawfulNum.fmt_tok v)]
  have nl : ∀ (v : D) (c : Str), '\n' ∉ c → '\n' ∉ List.replicate 14 ' ' ++ Num.fmt v ++ cs!" " ++ c := by
    intro v c hc h
    simp only [List.mem_append] at h
    rcases h with ((h | h) | h) | h
    · revert h; decide
    · exact nl_not_mem (LawfulNum.fmt_tok v) h
    · revert h; decide
    · exact hc h
  have isline : ∀ (v : D) (c r : Str), '\n' ∉ c → (r = [] ∨ r = cs!" ") → Line (List.replicate 14 ' ' ++ Num.fmt v ++ cs!" " ++ c ++ r) ∧
      split (List.replicate 14 ' ' ++ Num.fmt v ++ cs!" " ++ c ++ r) = Num.fmt v :: split c := by
    intro v c r hc hr
    have e : split (List.replicate 14 ' ' ++ Num.fmt v ++ cs!" " ++ c ++ r) = Num.fmt v :: split c := by
      rcases hr with rfl | rfl
      · rw [List.append_nil]; exact line v c
      · rw [split_append_space (_ ++ c) [], line v c]
        simp [split]
    refine ⟨⟨?_, by rw [e]; simp⟩, e⟩
    intro h
    rcases List.mem_append.1 h with h | h
    · exact nl v c hc h
    · rcases hr with rfl | rfl
      · simp at h
      · revert h; decide
  have readl : ∀ (v : D) (l c : Str) (ids : List Nat), formatRangeChunks max ids = [c] → (∀ i ∈ ids, i < NO_ID) → split l = Num.fmt v :: split c →
      readLine l = some (ids.map fun i => (Num.fmt v, i)) := by
    intro v l c ids hc hi hs
    have := ranges_decoded max ids hi
    rw [hc] at this
    unfold readRanges at this
    rw [List.flatMap_singleton] at this
    unfold readLine
    rw [hs]
    dsimp only
    rw [this]
    rfl
  induction es with
  | nil => rfl
  | cons e es ih =>
    obtain ⟨v, ids⟩ := e
    obtain ⟨c, hc⟩ := h1 (v, ids) (by simp)
    have hcn : '\n' ∉ c := chunk_toks c (by rw [hc]; simp)
    have hi := hid (v, ids) (by simp)
    cases es with
    | nil =>
      rw [materialText, materialValue, hc]
      simp only [if_true, List.append_nil]
      obtain ⟨l1, l2⟩ := isline v c cs!" " hcn (Or.inr rfl)
      rw [textLines_line l1, readLines, readl v _ c ids hc hi l2]
      simp [readLines, pairs]
    | cons e' es =>
      have ih' := ih (fun x hx => h1 x (by simp [hx])) (fun x hx => hid x (by simp [hx]))
      rw [materialText]
      · rw [materialValue, hc]
        simp only [Bool.false_eq_true, if_false]
        obtain ⟨l1, l2⟩ := isline v c [] hcn (Or.inl rfl)
        rw [List.append_nil] at l1 l2
        rw [List.append_assoc, List.singleton_append, textLines_append, textLines_line l1, readLines_append, ih', readLines,
          readl v _ c ids hc hi l2]
        simp [readLines, pairs]
      · simp

/-- `n` numbers from `a`, two by two. -/
def odds : Nat → Nat → List Nat
  | 0, _ => []
  | n + 1, a => a :: odds n (a + 2)

theorem odds_chain (n a : Nat) (h : a + 2 * n < NO_ID) : (a :: odds n (a + 2)).IsChain fun x y => y ≠ (x + 1) % W := by
  induction n generalizing a with
  | zero => simp [odds]
  | succ n ih =>
    rw [odds, List.isChain_cons_cons]
    refine ⟨?_, ih (a + 2) (by omega)⟩
    rw [Nat.mod_eq_of_lt (by unfold NO_ID at h; unfold W; omega)]
    omega

theorem mem_odds {n a i : Nat} (h : i ∈ odds n a) : i % 2 = a % 2 ∧ i < a + 2 * n := by
  induction n generalizing a with
  | zero => simp [odds] at h
  | succ n ih =>
    rw [odds] at h
    rcases List.mem_cons.1 h with rfl | h
    · exact ⟨rfl, by omega⟩
    · have := ih h
      omega

theorem odds_length (n a : Nat) : (odds n a).length = n := by
  induction n generalizing a with
  | zero => rfl
  | succ n ih => rw [odds, List.length_cons, ih]

/-- Without consecutive numbers, each range is one number. -/
theorem toks_single (max : Nat) (es : List Nat) : ∀ st : ChunkState, st.start = st.prev → (st.prev :: es).IsChain (fun x y => y ≠ (x + 1) % W) →
    (finish max (es.foldl (chunkStep max) st)).flatMap split = (st.results ++ [st.current]).flatMap split ++ (st.prev :: es).map showNat := by
  induction es with
  | nil =>
    intro st hs _
    rw [List.foldl_nil, finish_toks, hs]
    simp [token]
  | cons e es ih =>
    intro st hs hc
    rw [List.isChain_cons_cons] at hc
    rw [List.foldl_cons]
    have hstep : chunkStep max st e = ⟨(appendValue max (st.results, st.current) (token st.start st.prev)).1,
      (appendValue max (st.results, st.current) (token st.start st.prev)).2, e, e⟩ := by
      unfold chunkStep
      rw [if_neg hc.1]
    rw [hstep]
    refine (ih _ rfl hc.2).trans ?_
    dsimp only
    rw [appendValue_toks max (st.results, st.current) (isTok_token st.start st.prev), hs]
    simp [token]

theorem split_length (s : Str) : (split s).length ≤ s.length := by
  have : ∀ (n : Nat) (s : Str), s.length ≤ n → (split s).length ≤ s.length ∧ ∀ c, (split (c :: s)).length ≤ s.length + 1 := by
    intro n
    induction n with
    | zero =>
      intro s h
      have : s = [] := List.eq_nil_of_length_eq_zero (by omega)
      subst this
      refine ⟨by simp [split], ?_⟩
      intro c
      unfold split
      split <;> simp [split]
    | succ n ih =>
      intro s h
      have h1 : (split s).length ≤ s.length := by
        cases s with
        | nil => simp [split]
        | cons d ds =>
          have := (ih ds (by simp at h; omega)).2 d
          simpa using this
      refine ⟨h1, ?_⟩
      intro c
      unfold split
      split
      · omega
      · cases s with
        | nil => simp
        | cons d ds =>
          dsimp only
          split
          · simp only [List.length_cons] at h1 ⊢; omega
          · split
            · simp
            · rename_i hs
              rw [hs] at h1
              simp only [List.length_cons] at h1 ⊢
              omega
  exact (this s.length s (Nat.le_refl _)).1

/-- A list of numbers that does not fit in one line. -/
theorem two_lines : ∃ c d r, formatRangeChunks CHUNK_SIZE (odds 2000 1) = c :: d :: r := by
  have htoks : (formatRangeChunks CHUNK_SIZE (odds 2000 1)).flatMap split = (odds 2000 1).map showNat := by
    have := toks_single CHUNK_SIZE (odds 1999 3) ⟨[], [], 1, 1⟩ rfl (odds_chain 1999 1 (by decide))
    simp only [List.nil_append, List.flatMap_singleton] at this
    exact this
  have hshort := file_lines_short (odds 2000 1) (by
    intro i hi
    have := (mem_odds hi).2
    unfold W
    omega)
  have hlen : ((formatRangeChunks CHUNK_SIZE (odds 2000 1)).flatMap split).length = 2000 := by
    rw [htoks, List.length_map, odds_length]
  revert hshort hlen
  generalize formatRangeChunks CHUNK_SIZE (odds 2000 1) = l
  intro hshort hlen
  match l with
  | [] => simp at hlen
  | [c] =>
    have := hshort c (by simp)
    have h2 := split_length c
    simp only [List.flatMap_singleton] at hlen
    omega
  | c :: d :: r => exact ⟨c, d, r, rfl⟩

/-- The lines of a value that is the last one of its map are glued together. -/
theorem material_glued [Num D] [LawfulNum D] {max : Nat} {v : D} {ids : List Nat} {c d : Str} {r : List Str}
    (h : formatRangeChunks max ids = c :: d :: r) :
    ∃ l, textLines (materialText max [(v, ids)]) = [l] ∧
      split l = Num.fmt v :: split c ++ (Num.fmt v :: split d) ++ r.flatMap fun c => Num.fmt v :: split c := by
  have blanks : ∀ (n : Nat) (s : Str), split (List.replicate n ' ' ++ s) = split s := by
    intro n s
    induction n with
    | zero => rfl
    | succ n ih => rw [List.replicate_succ, List.cons_append, split_cons_ws rfl, ih]
  have piece : ∀ (a c : Str), split (a ++ (List.replicate 14 ' ' ++ Num.fmt v ++ cs!" " ++ c)) = split a ++ (Num.fmt v :: split c) := by
    intro a c
    have e : a ++ (List.replicate 14 ' ' ++ Num.fmt v ++ cs!" " ++ c) = a ++ ' ' :: (List.replicate 13 ' ' ++ (Num.fmt v ++ ' ' :: c)) := by
      simp [List.replicate_succ]
    rw [e, split_append_space, blanks, split_tok_append (LawfulNum.fmt_tok v)]
  have all : ∀ (cs : List Str) (a : Str), split (a ++ cs.flatMap fun c => List.replicate 14 ' ' ++ Num.fmt v ++ cs!" " ++ c) =
      split a ++ cs.flatMap fun c => Num.fmt v :: split c := by
    intro cs
    induction cs with
    | nil => intro a; simp
    | cons x xs ih =>
      intro a
      rw [List.flatMap_cons, ← List.append_assoc, ih, piece, List.flatMap_cons, List.append_assoc]
  have hnl : ∀ x ∈ c :: d :: r, '\n' ∉ x := by
    intro x hx
    exact chunk_toks (max := max) (ids := ids) x (by rw [h]; exact hx)
  have hs : split (((c :: d :: r).flatMap fun c => List.replicate 14 ' ' ++ Num.fmt v ++ cs!" " ++ c) ++ cs!" ") =
      (c :: d :: r).flatMap fun c => Num.fmt v :: split c := by
    rw [split_append_space _ []]
    have := all (c :: d :: r) []
    rw [List.nil_append] at this
    rw [this]
    simp [split]
  have hm : materialText max [(v, ids)] = ((c :: d :: r).flatMap fun c => List.replicate 14 ' ' ++ Num.fmt v ++ cs!" " ++ c) ++ cs!" " := by
    rw [materialText, materialValue, h]
    rfl
  refine ⟨((c :: d :: r).flatMap fun c => List.replicate 14 ' ' ++ Num.fmt v ++ cs!" " ++ c) ++ cs!" ", ?_, ?_⟩
  · rw [hm]
    refine textLines_line ⟨?_, by rw [hs]; simp⟩
    intro hmem
    rcases List.mem_append.1 hmem with hmem | hmem
    · rw [List.mem_flatMap] at hmem
      obtain ⟨x, hx, hmem⟩ := hmem
      simp only [List.mem_append] at hmem
      rcases hmem with ((h1 | h1) | h1) | h1
      · exact absurd (List.eq_of_mem_replicate h1) (by decide)
      · exact nl_not_mem (LawfulNum.fmt_tok v) h1
      · revert h1; decide
      · exact hnl x hx h1
    · revert hmem; decide
  · rw [hs]
    simp

/-- **C57 fails**: when the features of a value need two lines, no line end is written between them, and the value repeated at the
beginning of the second one reads as the number of a feature.  Here the features 1, 3, 5, ... 3999 have the value 4; what is read is that
the feature number 4 has it. -/
theorem material_lines_glued : 4 ∉ odds 2000 1 ∧ ∃ ps, readLines (textLines (materialText CHUNK_SIZE [((4 : Int), odds 2000 1)])) = some ps ∧
    (cs!"4", 4) ∈ ps := by
  refine ⟨fun h => absurd (mem_odds h).1 (by decide), ?_⟩
  obtain ⟨c, d, r, h⟩ := two_lines
  obtain ⟨l, h1, h2⟩ := material_glued (v := (4 : Int)) h
  have hdec := ranges_decoded CHUNK_SIZE (odds 2000 1) (by
    intro i hi
    have := (mem_odds hi).2
    unfold NO_ID
    omega)
  rw [h] at hdec
  unfold readRanges at hdec
  rw [List.flatMap_cons, List.flatMap_cons, expandAll_append, expandAll_append] at hdec
  have h4 : expand (Num.fmt (4 : Int)) = some [4] := by decide +kernel
  have fmt4 : Num.fmt (4 : Int) = cs!"4" := rfl
  -- every line of ranges is readable
  have readable : ∀ r : List Str, (expandAll (r.flatMap split)).isSome →
      (expandAll (r.flatMap fun c => Num.fmt (4 : Int) :: split c)).isSome := by
    intro r
    induction r with
    | nil => intro _; rfl
    | cons x xs ih =>
      intro hx
      rw [List.flatMap_cons, expandAll_append] at hx
      rw [List.flatMap_cons, expandAll_append, expandAll, h4]
      cases e1 : expandAll (split x) with
      | none => rw [e1] at hx; simp at hx
      | some y =>
        cases e2 : expandAll (xs.flatMap split) with
        | none => rw [e1, e2] at hx; simp at hx
        | some z =>
          have := ih (by rw [e2]; rfl)
          obtain ⟨w, hw⟩ := Option.isSome_iff_exists.1 this
          rw [hw]
          rfl
  cases e1 : expandAll (split c) with
  | none => rw [e1] at hdec; simp at hdec
  | some y1 =>
    cases e2 : expandAll (split d) with
    | none => rw [e1, e2] at hdec; simp at hdec
    | some y2 =>
      cases e3 : expandAll (r.flatMap split) with
      | none => rw [e1, e2, e3] at hdec; simp at hdec
      | some y3 =>
        have := readable r (by rw [e3]; rfl)
        obtain ⟨y4, h5⟩ := Option.isSome_iff_exists.1 this
        have hl : readLine l = some ((y1 ++ ([4] ++ y2) ++ y4).map fun i => (cs!"4", i)) := by
          unfold readLine
          rw [h2]
          simp only [List.cons_append]
          rw [List.append_assoc, expandAll_append, e1, List.cons_append, expandAll, h4, expandAll_append, e2, h5, fmt4]
          simp
        rw [h1, readLines, hl]
        refine ⟨_, rfl, ?_⟩
        simp

/-! ## C56: geometry -/

/-- The content of an element line: the type 6, then the nodes. -/
def readElement (l : Str) : Option (List Nat) :=
  match split l with
  | t :: ns => if t = cs!"6" then ns.mapM parseNat else none
  | [] => none

/-- **C56: elements.**  Line number `k` of the elements has the vertices of polyhedron `k`, numbered from 1, and the header their
number. -/
theorem elements_written (m : Mesh D) :
    ∃ header lines, writeVarNode m = cs!"VARNODE" :: header :: lines ∧ split header = [showNat m.polyhedra.length, cs!"4", cs!"4"] ∧
      lines.map readElement = m.polyhedra.map fun vs => some (vs.map (· + 1)) := by
  refine ⟨_, _, rfl, ?_, ?_⟩
  · rw [List.append_assoc, List.singleton_append, split_cons_ws rfl]
    change split (showNat m.polyhedra.length ++ ' ' :: cs!"4 4") = _
    rw [split_tok_append (isTok_showNat _)]
    rfl
  · rw [List.map_map]
    apply List.map_congr_left
    intro vs _
    have e : ∀ vs : List Nat, split (vs.flatMap fun v => showNat (v + 1) ++ cs!" ") = (vs.map (· + 1)).map showNat := by
      intro vs
      induction vs with
      | nil => rfl
      | cons v vs ih =>
        rw [List.flatMap_cons, List.append_assoc, List.singleton_append, split_tok_append (isTok_showNat _), ih]
        rfl
    have e2 : split (cs!" 6 " ++ vs.flatMap fun v => showNat (v + 1) ++ cs!" ") = cs!"6" :: (vs.map (· + 1)).map showNat := by
      have e3 : cs!" 6 " ++ (vs.flatMap fun v => showNat (v + 1) ++ cs!" ") =
          ' ' :: (cs!"6" ++ ' ' :: vs.flatMap fun v => showNat (v + 1) ++ cs!" ") := rfl
      rw [e3, split_cons_ws rfl, split_tok_append (by decide), e]
    simp only [Function.comp, readElement, e2, if_true]
    exact mapM_parseNat _

/-- The content of a node line: three numbers separated by commas. -/
def readNode [Num D] (l : Str) : Option (Pt D) :=
  match split l with
  | [a, b, c] =>
    match a.getLast?, b.getLast? with
    | some ',', some ',' => do
      let x ← Num.parse a.dropLast
      let y ← Num.parse b.dropLast
      let z ← Num.parse c
      some ⟨x, y, z⟩
    | _, _ => none
  | _ => none

/-- **C56: nodes.**  Line number `k` of the nodes has the coordinates of vertex `k`, up to the rounding of number formatting. -/
theorem nodes_written [Num D] [LawfulNum D] (m : Mesh D) :
    ∃ lines, writeNodeCoordinates m = cs!"XYZCOOR" :: lines ∧ lines.map readNode = m.points.map fun p => some p.round := by
  refine ⟨_, rfl, ?_⟩
  rw [List.map_map]
  apply List.map_congr_left
  intro p _
  have htok : ∀ v : D, IsTok (Num.fmt v ++ cs!",") := by
    intro v
    refine ⟨by simp, ?_⟩
    intro c hc
    rcases List.mem_append.1 hc with h | h
    · exact (LawfulNum.fmt_tok v).2 c h
    · rw [List.mem_singleton] at h; rw [h]; rfl
  have e : cs!" " ++ Num.fmt p.x ++ cs!", " ++ Num.fmt p.y ++ cs!", " ++ Num.fmt p.z =
      ' ' :: ((Num.fmt p.x ++ cs!",") ++ ' ' :: ((Num.fmt p.y ++ cs!",") ++ ' ' :: Num.fmt p.z)) := by simp
  have e2 : split (cs!" " ++ Num.fmt p.x ++ cs!", " ++ Num.fmt p.y ++ cs!", " ++ Num.fmt p.z) =
      [Num.fmt p.x ++ cs!",", Num.fmt p.y ++ cs!",", Num.fmt p.z] := by
    rw [e, split_cons_ws rfl, split_tok_append (htok _), split_tok_append (htok _), split_tok (LawfulNum.fmt_tok _)]
  simp only [Function.comp, readNode, e2, List.getLast?_append, List.getLast?_singleton, Option.some_or, List.dropLast_concat,
    LawfulNum.parse_fmt]
  rfl

end Verif.Props.FemFeatures
