import Verif.Lemmas.LsoAttrs
import Verif.Props.Recognise

/-!
# Properties of the vertices of LightSolid files, and stratigraphic coordinates

`propTokens`, `propWords`, `vertexLines` and `headersOf` (in `Verif.Lemmas.LsoAttrs`) say where the words of a property are in a file: on the
line of a vertex, after its number and its coordinates (after the two numbers for a shared vertex), in the order and with the sizes that the
header announces.  The vertex `i` of a block `b` comes from the line number `b.vertices[i]` of the vertices of the file.
-/

set_option linter.unusedSectionVars false

namespace Verif.Props.StratiLso

open Verif.Gocad Verif.Lso Verif.StratiLso Res

variable {D : Type} [Num D]

/-- The line of the file that the vertex `i` of the block is made from has the values `vs` for the property `a`. -/
def LineHas (vh : PropHeader D) (rest : File) (b : RBlock D) (a i : Nat) (vs : List D) : Prop :=
  ∃ u l, b.vertices[i]? = some u ∧ (vertexLines rest)[u]? = some l ∧ mapM' readDouble (propWords vh.esizes a (propTokens l)) = .ok vs

/-- What `loadLso` has read, by parts. -/
theorem load_parts {f : File} {m : Loaded D} (h : loadLso f = .ok m) : ∃ zPos vh th rest, headersOf f = .ok (zPos, vh, th, rest) ∧
    Columns vh.esizes m.solid (vertexLines rest) ∧
    ∀ b ∈ m.blocks, ∃ st l j, readBlock ⟨vh, th⟩ m.solid st l = .ok (b, j) := by
  unfold loadLso at h
  obtain ⟨⟨l0, f0⟩, h0, h⟩ := bind_eq_ok.1 h
  obtain ⟨⟨name, f1⟩, h1, h⟩ := bind_eq_ok.1 h
  obtain ⟨⟨crs, f2⟩, h2, h⟩ := bind_eq_ok.1 h
  obtain ⟨⟨vh, f3⟩, h3, h⟩ := bind_eq_ok.1 h
  obtain ⟨⟨th, f4⟩, h4, h⟩ := bind_eq_ok.1 h
  obtain ⟨⟨s, l5, f5⟩, h5, h⟩ := bind_eq_ok.1 h
  obtain ⟨⟨l6, f6⟩, h6, h⟩ := bind_eq_ok.1 h
  obtain ⟨⟨s', l7, f7⟩, h7, h⟩ := bind_eq_ok.1 h
  obtain ⟨⟨l8, f8⟩, h8, h⟩ := bind_eq_ok.1 h
  obtain ⟨⟨st, l9, f9⟩, h9, h⟩ := bind_eq_ok.1 h
  obtain ⟨⟨bs, ins⟩, h10, h⟩ := bind_eq_ok.1 h
  have e := Res.ok.inj h
  clear h
  refine ⟨crs.zPos, vh, th, f4, ?_, ?_, ?_⟩
  · unfold headersOf
    simp only [h0, h1, h2, h3, h4, ok_bind, pure_eq]
  · have hlen : ∀ a e : Nat, vh.esizes[a]? = some e → a < vh.names.length := by
      intro a e ha
      have hc := h5
      unfold readVertices at hc
      obtain ⟨⟨x, f'⟩, _, hc⟩ := bind_eq_ok.1 hc
      obtain ⟨s1, hc, _⟩ := bind_eq_ok.1 hc
      have key : ∃ toks va, readProperties vh.esizes (vh.names.map fun _ => ([] : List D)) toks = .ok va := by
        unfold readVertex at hc
        simp only at hc
        split at hc
        · obtain ⟨w, _, q1⟩ := bind_eq_ok.1 hc
          obtain ⟨n, _, q2⟩ := bind_eq_ok.1 q1
          obtain ⟨p, _, q3⟩ := bind_eq_ok.1 q2
          obtain ⟨va, q4, _⟩ := bind_eq_ok.1 q3
          exact ⟨_, va, q4⟩
        · obtain ⟨p, _, q3⟩ := bind_eq_ok.1 hc
          obtain ⟨va, q4, _⟩ := bind_eq_ok.1 q3
          exact ⟨_, va, q4⟩
      obtain ⟨toks, va, hk⟩ := key
      obtain ⟨_, q⟩ := readProperties_ok _ hk
      obtain ⟨col, _, q1, _⟩ := q a e ha
      have := (List.getElem?_eq_some_iff.1 q1).1
      simpa using this
    have hC : Columns vh.esizes ({ vattrs := vh.names.map fun _ => [], tattrs := th.names.map fun _ => [] } : Solid D) [] := by
      refine ⟨rfl, fun a e ha => ⟨[], ?_, .nil⟩⟩
      simp [hlen a e ha]
    have hV := readVertices_columns hC h5
    obtain ⟨e1, e2⟩ := readTetras_vertices _ _ _ (Nat.le_refl _) h7
    subst e
    refine ⟨by rw [e1]; exact hV.1, ?_⟩
    rw [e2]
    exact hV.2
  · intro b hb
    subst e
    rcases readBlocks_mem _ h10 b hb with hb | ⟨l, j, hb⟩
    · cases hb
    · exact ⟨st, l, j, hb⟩

/-- C84: in a file that is loaded, the attribute of every block that has the name of a vertex property gives each vertex the values of its own
line of the file. -/
theorem vertex_properties {f : File} {m : Loaded D} (h : loadLso f = .ok m) {zPos : Bool} {vh th : PropHeader D} {rest : File}
    (hh : headersOf f = .ok (zPos, vh, th, rest)) (hn : vh.names.Nodup) {b : RBlock D} (hb : b ∈ m.blocks) {a : Nat} {name : Str}
    (ha : vh.names[a]? = some name) (h0 : ∀ e : Nat, vh.esizes[a]? = some e → e ≠ 0) :
    ∃ c, b.vstore.lookup name = some c ∧ vh.esizes[a]? = some c.esize ∧ c.vals.length = b.vertices.length ∧
      ∀ (i : Nat) (vs : List D), c.vals[i]? = some vs → LineHas vh rest b a i vs ∧ vs.length = c.esize := by
  obtain ⟨z', vh', th', rest', e1, e2, e3⟩ := load_parts h
  rw [hh] at e1
  cases e1
  obtain ⟨st, l, j, e4⟩ := e3 b hb
  unfold readBlock at e4
  obtain ⟨nm, _, e4⟩ := bind_eq_ok.1 e4
  obtain ⟨vs, e5, e4⟩ := bind_eq_ok.1 e4
  obtain ⟨ts, _, e4⟩ := bind_eq_ok.1 e4
  have e6 := Res.ok.inj e4
  clear e4
  unfold blockAttributes at e5
  have hb2 : b.vstore = vs ∧ b.vertices = (localCells [] (tetrasNamed m.solid nm)).1 := by
    have := congrArg Prod.fst e6
    subst this
    exact ⟨rfl, rfl⟩
  obtain ⟨_, e7⟩ := createAttributes_lookup _ _ hn (by simp) e5
  obtain ⟨e, col, c, q1, q2, q3, q4, q5⟩ := e7 a name ha
  refine ⟨c, by rw [hb2.1]; exact q3, by rw [q4]; exact q1, ?_, ?_⟩
  · rw [hb2.2]
    exact (mapM'_inv q5).length_eq.symm
  · intro i vs' hi
    obtain ⟨items, z1, z2⟩ := e2.2 a e q1
    rw [q2] at z1
    cases z1
    have hF := mapM'_inv q5
    have hilt : i < b.vertices.length := by
      rw [hb2.2, hF.length_eq]
      exact (List.getElem?_eq_some_iff.1 hi).1
    have hu : b.vertices[i]? = some (b.vertices[i]) := List.getElem?_eq_getElem hilt
    obtain ⟨vs2, w1, w2⟩ := forall₂_getElem? hF (show (localCells [] (tetrasNamed m.solid nm)).1[i]? = some (b.vertices[i]) by rw [← hb2.2]; exact hu)
    have : c.vals[i]? = some vs2 := w1
    rw [hi] at this
    cases this
    have hil : ∀ x ∈ items, x.length = e := by
      intro x hx
      obtain ⟨k, hk⟩ := List.mem_iff_getElem?.1 hx
      have hk2 : k < (vertexLines rest).length := by rw [z2.length_eq]; exact (List.getElem?_eq_some_iff.1 hk).1
      obtain ⟨y, y1, y2, y3⟩ := forall₂_getElem? z2 (List.getElem?_eq_getElem hk2)
      rw [hk] at y1
      cases y1
      exact y3
    rcases itemsAt_flatten items hil _ w2 with he | he
    · exact absurd he (h0 e q1)
    · have hk2 : b.vertices[i] < (vertexLines rest).length := by rw [z2.length_eq]; exact (List.getElem?_eq_some_iff.1 he).1
      obtain ⟨y, y1, y2, y3⟩ := forall₂_getElem? z2 (List.getElem?_eq_getElem hk2)
      rw [he] at y1
      cases y1
      exact ⟨⟨_, _, hu, List.getElem?_eq_getElem hk2, y2⟩, by rw [q4]; exact y3⟩

theorem index_two {α : Type} {l : List α} {a b : α} (ha : index l 0 = .ok a) (hb : index l 1 = .ok b) (hl : l.length = 2) : l = [a, b] := by
  match l, hl with
  | [x, y], _ => cases ha; cases hb; rfl

theorem index_one {α : Type} {l : List α} {a : α} (ha : index l 0 = .ok a) (hl : l.length = 1) : l = [a] := by
  match l, hl with
  | [x], _ => cases ha; rfl

/-- C85: the stratigraphic coordinates of each vertex of each block are the two geological values and the stratigraphic value of its own
line of the file. -/
theorem stratigraphic_coordinates {f : File} {m : Loaded D} {coords : List (List (Pt D))} (h : loadStrati f = .ok (m, coords)) {zPos : Bool}
    {vh th : PropHeader D} {rest : File} (hh : headersOf f = .ok (zPos, vh, th, rest)) (hn : vh.names.Nodup) {g s : Nat}
    (hg : vh.names[g]? = some cs!"SnS!ingridStructuralWorkflow/skua_model_Geology")
    (hs : vh.names[s]? = some cs!"SnS!ingridStructuralWorkflow/skua_model_stratigraphy") :
    loadLso f = .ok m ∧ List.Forall₂ (fun b ps => ps.length = b.vertices.length ∧ ∀ (i : Nat) (p : Pt D), ps[i]? = some p →
      LineHas vh rest b g i [p.x, p.y] ∧ LineHas vh rest b s i [p.z]) m.blocks coords := by
  unfold loadStrati at h
  obtain ⟨m', h1, h⟩ := bind_eq_ok.1 h
  obtain ⟨cs, h2, h⟩ := bind_eq_ok.1 h
  cases h
  refine ⟨h1, ?_⟩
  have hF := mapM'_inv h2
  have hall : ∀ b ∈ m.blocks, ∀ ps, blockCoords b = .ok ps → ps.length = b.vertices.length ∧ ∀ (i : Nat) (p : Pt D), ps[i]? = some p →
      LineHas vh rest b g i [p.x, p.y] ∧ LineHas vh rest b s i [p.z] := by
    intro b hb ps hps
    unfold blockCoords at hps
    obtain ⟨sc, q1, hps⟩ := bind_eq_ok.1 hps
    obtain ⟨gc, q2, hps⟩ := bind_eq_ok.1 hps
    have hq1 : b.vstore.lookup STRATI = some sc := by
      cases hl : b.vstore.lookup STRATI with
      | none => rw [hl] at q1; cases q1
      | some x => rw [hl] at q1; cases q1; rfl
    have hq2 : b.vstore.lookup GEOL = some gc := by
      cases hl : b.vstore.lookup GEOL with
      | none => rw [hl] at q2; cases q2
      | some x => rw [hl] at q2; cases q2; rfl
    have hP := mapM'_inv hps
    refine ⟨by rw [← hP.length_eq]; simp, ?_⟩
    intro i p hp
    have hi : i < b.vertices.length := by
      have := (List.getElem?_eq_some_iff.1 hp).1
      rw [← hP.length_eq] at this
      simpa using this
    obtain ⟨p', p1, p2⟩ := forall₂_getElem? hP (show (List.range b.vertices.length)[i]? = some i by rw [List.getElem?_range hi])
    rw [hp] at p1
    cases p1
    unfold vertexCoords typedValue at p2
    obtain ⟨gv, r1, p2⟩ := bind_eq_ok.1 p2
    obtain ⟨x, r2, p2⟩ := bind_eq_ok.1 p2
    obtain ⟨y, r3, p2⟩ := bind_eq_ok.1 p2
    obtain ⟨sv, r4, p2⟩ := bind_eq_ok.1 p2
    obtain ⟨z, r5, p2⟩ := bind_eq_ok.1 p2
    cases p2
    split at r1
    · next hk =>
      split at r4
      · next hk' =>
        have hge : gc.esize = 2 := by
          unfold storageKind at hk
          split at hk
          · exact hk
          · cases hk
        have hse : sc.esize = 1 := by
          unfold storageKind at hk'
          split at hk'
          · exact hk'
          · cases hk'
        have main : ∀ (a : Nat) (name : Str) (c : Column D), vh.names[a]? = some name → b.vstore.lookup name = some c → c.esize ≠ 0 →
            ∀ (vs : List D), c.vals[i]? = some vs → LineHas vh rest b a i vs ∧ vs.length = c.esize := by
          intro a name c ha hc hne vs hvs
          by_cases h0 : ∀ e : Nat, vh.esizes[a]? = some e → e ≠ 0
          · obtain ⟨c', w1, w2, w3, w4⟩ := vertex_properties h1 hh hn hb ha h0
            rw [hc] at w1
            cases w1
            exact w4 i vs hvs
          · exfalso
            apply h0
            intro e he
            obtain ⟨z', vh', th', rest', e1, e2, e3⟩ := load_parts h1
            rw [hh] at e1
            cases e1
            obtain ⟨st, l, j, e4⟩ := e3 b hb
            unfold readBlock at e4
            obtain ⟨nm, _, e4⟩ := bind_eq_ok.1 e4
            obtain ⟨vst, e5, e4⟩ := bind_eq_ok.1 e4
            obtain ⟨ts, _, e4⟩ := bind_eq_ok.1 e4
            have e6 := congrArg Prod.fst (Res.ok.inj e4)
            unfold blockAttributes at e5
            obtain ⟨_, e7⟩ := createAttributes_lookup _ _ hn (by simp) e5
            obtain ⟨e', col, c', q1', q2', q3', q4', q5'⟩ := e7 a name ha
            rw [he] at q1'
            cases q1'
            subst e6
            simp only at hc
            rw [hc] at q3'
            cases q3'
            exact q4' ▸ hne
        obtain ⟨g1, g2⟩ := main g GEOL gc hg hq2 (by omega) gv (index_eq_ok.1 r1)
        obtain ⟨s1, s2⟩ := main s STRATI sc hs hq1 (by omega) sv (index_eq_ok.1 r4)
        rw [index_two r2 r3 (by omega)] at g1
        rw [index_one r5 (by omega)] at s1
        exact ⟨g1, s1⟩
      · cases r4
    · cases r1
  clear h2
  have : ∀ (bs : List (RBlock D)) (cs : List (List (Pt D))), (∀ b ∈ bs, b ∈ m.blocks) → List.Forall₂ (fun a b => blockCoords a = .ok b) bs cs →
      List.Forall₂ (fun b ps => ps.length = b.vertices.length ∧ ∀ (i : Nat) (p : Pt D), ps[i]? = some p →
        LineHas vh rest b g i [p.x, p.y] ∧ LineHas vh rest b s i [p.z]) bs cs := by
    intro bs cs hm hF
    induction hF with
    | nil => exact .nil
    | cons h1 _ ih => exact .cons (hall _ (hm _ (by simp)) _ h1) (ih fun b hb => hm b (by simp [hb]))
  exact this _ _ (fun b hb => hb) hF

/-- C86: a file whose vertices lack one of the two properties, and that has a block, is refused with an exception, when the structural model
can be read. -/
theorem missing_property_throws {f : File} {m : Loaded D} (h : loadLso f = .ok m) (hb : m.blocks ≠ []) {zPos : Bool} {vh th : PropHeader D}
    {rest : File} (hh : headersOf f = .ok (zPos, vh, th, rest)) (hn : vh.names.Nodup) (hm : GEOL ∉ vh.names ∨ STRATI ∉ vh.names) :
    loadStrati (D := D) f = .throw := by
  obtain ⟨b, bs, e⟩ : ∃ b bs, m.blocks = b :: bs := by
    cases hx : m.blocks with
    | nil => exact absurd hx hb
    | cons b bs => exact ⟨b, bs, rfl⟩
  have hnone : ∀ n, n ∉ vh.names → b.vstore.lookup n = none := by
    intro n hnn
    obtain ⟨z', vh', th', rest', e1, e2, e3⟩ := load_parts h
    rw [hh] at e1
    cases e1
    obtain ⟨st, l, j, e4⟩ := e3 b (by rw [e]; simp)
    unfold readBlock at e4
    obtain ⟨nm, _, e4⟩ := bind_eq_ok.1 e4
    obtain ⟨vst, e5, e4⟩ := bind_eq_ok.1 e4
    obtain ⟨ts, _, e4⟩ := bind_eq_ok.1 e4
    have e6 := congrArg Prod.fst (Res.ok.inj e4)
    unfold blockAttributes at e5
    obtain ⟨e7, _⟩ := createAttributes_lookup _ _ hn (by simp) e5
    subst e6
    simp only
    rw [e7 n hnn]
    rfl
  have hbc : blockCoords b = .throw := by
    unfold blockCoords
    cases hl : b.vstore.lookup STRATI with
    | none => rfl
    | some c =>
      rcases hm with hm | hm
      · rw [ofParse_some, ok_bind, hnone _ hm]
        rfl
      · rw [hnone _ hm] at hl
        cases hl
  unfold loadStrati
  rw [h, ok_bind, e, mapM'_cons, hbc]
  rfl

/-- A file with one block of one tetrahedron and two properties of the vertices, whose names, sizes and values are given. -/
def propertyFile (g s : Str) (gsize ssize : Nat) (values : Nat → Str) : File :=
  [cs!"GOCAD LightTSolid 1", cs!"HEADER {", cs!"name:a", cs!"}"] ++ writeCrs {} ++
  [cs!"PROPERTIES" ++ spaced [g, s], cs!"PROP_LEGAL_RANGES **none** **none** **none** **none**", cs!"NO_DATA_VALUES 0 0",
   cs!"PROPERTY_CLASSES g s", cs!"PROPERTY_KINDS g s", cs!"PROPERTY_SUBCLASSES QUANTITY Float QUANTITY Float",
   cs!"ESIZES" ++ spaced [showNat gsize, showNat ssize], cs!"UNITS none none",
   cs!"PVRTX 1 0 0 0" ++ values 0, cs!"PVRTX 2 1 0 0" ++ values 1, cs!"PVRTX 3 0 1 0" ++ values 2, cs!"PVRTX 4 0 0 1" ++ values 3,
   cs!"TETRA 2 1 3 4", cs!"# CTETRA A none none none none", cs!"MODEL", cs!"SURFACE s", cs!"TFACE 1", cs!"KEYVERTICES 1 2 3",
   cs!"TRGL 1 2 3", cs!"MODEL_REGION A +1", cs!"END"]

/-- The hypotheses of C85 are met: the first vertex of the block is the second line of the file. -/
example : (match loadStrati (D := Int) (propertyFile GEOL STRATI 2 1 fun i => spaced [showNat (10 * i + 1), showNat (10 * i + 2), showNat (10 * i + 3)]) with
    | .ok (_, c) => decide (c = [[⟨11, 12, 13⟩, ⟨1, 2, 3⟩, ⟨21, 22, 23⟩, ⟨31, 32, 33⟩]])
    | _ => false) = true ∧
    (match headersOf (D := Int) (propertyFile GEOL STRATI 2 1 fun i => spaced [showNat i, showNat i, showNat i]) with
    | .ok (_, vh, _, _) => decide (vh.names.Nodup ∧ vh.names[0]? = some GEOL ∧ vh.names[1]? = some STRATI ∧ vh.esizes = [2, 1])
    | _ => false) = true ∧
    isLoadableStrati (propertyFile GEOL STRATI 2 1 fun _ => cs!" 0 0 0") = true := by
  refine ⟨by decide +kernel, by decide +kernel, by decide +kernel⟩

/-- C86, against the full statement: two properties of the right names but of other sizes are not refused with an exception; the code uses
a null pointer. -/
theorem other_size_ub : loadStrati (D := Int) (propertyFile GEOL STRATI 1 1 fun _ => cs!" 0 0") = .ub ∧
    loadStrati (D := Int) (propertyFile GEOL STRATI 2 2 fun _ => cs!" 0 0 0 0") = .ub := ⟨by decide +kernel, by decide +kernel⟩

/-- C87, against the full statement: names that contain the two names are recognised, and the file is refused. -/
theorem recognised_refused : isLoadableStrati (propertyFile (GEOL ++ cs!"2") STRATI 2 1 fun _ => cs!" 0 0 0") = true ∧
    loadStrati (D := Int) (propertyFile (GEOL ++ cs!"2") STRATI 2 1 fun _ => cs!" 0 0 0") = .throw := ⟨by decide +kernel, by decide +kernel⟩

/-- What a recognised file has: the line of a LightSolid, and a line of properties that mentions both names. -/
theorem recognised_mentions {f : File} (h : isLoadableStrati f = true) :
    Recognise.Mentions cs!"GOCAD LightTSolid" f ∧ ∃ l ∈ f, (∃ rest, l = cs!"PROPERTIES" ++ rest) ∧
      contains cs!"SnS!ingridStructuralWorkflow/skua_model_Geology" l = true ∧
      contains cs!"SnS!ingridStructuralWorkflow/skua_model_stratigraphy" l = true := by
  unfold isLoadableStrati at h
  rw [Bool.and_eq_true] at h
  refine ⟨(Recognise.hasKeyword_iff _ _).1 h.1, ?_⟩
  have h2 := h.2
  split at h2
  · cases h2
  · next l r hg =>
    rw [Bool.and_eq_true] at h2
    have hmem : ∀ (kw : Str) (f : File) (l : Str) (r : File), gotoKeyword? kw f = some (l, r) → l ∈ f ∧ ∃ rest, l = kw ++ rest := by
      intro kw f
      induction f with
      | nil => intro l r h; cases h
      | cons x f ih =>
        intro l r h
        rw [gotoKeyword?.eq_def] at h
        simp only at h
        split at h
        · next hs =>
          cases h
          obtain ⟨q, hq⟩ := List.isPrefixOf_iff_prefix.1 hs
          exact ⟨by simp, q, hq.symm⟩
        · obtain ⟨h1, h2⟩ := ih l r h
          exact ⟨by simp [h1], h2⟩
    obtain ⟨q1, q2⟩ := hmem _ _ _ _ hg
    exact ⟨l, q1, q2, h2.1, h2.2⟩

end Verif.Props.StratiLso
