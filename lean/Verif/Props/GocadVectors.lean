import Verif.Lemmas.LsoAttrs
import Verif.Lemmas.GocadBuild

/-!
# Properties of any number of components in TSurf and VSet files
-/

set_option linter.unusedSectionVars false

namespace Verif.Props.GocadVectors

open Verif Verif.Gocad Verif.GocadMesh Verif.Lso Res

variable {D : Type} [Num D]

/-! ## Specification -/

/-- The words of the properties on a line of a TSurf, for the lines that define a vertex. -/
def tsRow (l : Str) : Option (List Str) :=
  match (split l).head? with
  | some kw =>
    if kw = cs!"VRTX" ∨ kw = cs!"PVRTX" then some ((split l).drop 5)
    else if kw = cs!"ATOM" ∨ kw = cs!"PATOM" then some ((split l).drop 3)
    else none
  | none => none

/-- The same for a VSet. -/
def vsRow (l : Str) : Option (List Str) :=
  match (split l).head? with
  | some kw => if kw = cs!"VRTX" ∨ kw = cs!"PVRTX" then some ((split l).drop 5) else none
  | none => none

/-- The lines before `END`. -/
def body (f : File) : List Str := f.takeWhile fun l => (split l).head? ≠ some cs!"END"

/-- The values of the property `a` for the vertices defined by `rows`: those of the words of the property on the row of each vertex. -/
def Values (es : List Nat) (a e : Nat) (rows : List (List Str)) (items : List (List D)) : Prop :=
  List.Forall₂ (fun row vs => Res.mapM' readDouble (propWords es a row) = .ok vs ∧ vs.length = e) rows items

/-- The columns hold the values of the rows. -/
def ColsOk (es : List Nat) (attrs : List (List D)) (rows : List (List Str)) : Prop :=
  ∀ a e : Nat, es[a]? = some e → ∃ items : List (List D), attrs[a]? = some items.flatten ∧ Values es a e rows items

/-! ## Reading -/

theorem colsOk_snoc {es : List Nat} {attrs attrs' : List (List D)} {rows : List (List Str)} {row : List Str} (h : ColsOk es attrs rows)
    (hr : readProperties es attrs row = .ok attrs') : ColsOk es attrs' (rows ++ [row]) := by
  obtain ⟨_, hp⟩ := readProperties_ok es hr
  intro a e ha
  obtain ⟨items, h1, h2⟩ := h a e ha
  obtain ⟨col, vs, q1, q2, q3, q4⟩ := hp a e ha
  rw [h1] at q1
  cases q1
  exact ⟨items ++ [vs], by rw [q2]; simp, forall₂_snoc h2 ⟨q3, q4⟩⟩

theorem tsLine_cols {ts ts' : TSurf D} {kw : Str} {tokens : List Str} {rows : List (List Str)} (hc : ColsOk ts.props.esizes ts.attrs rows)
    (hp : ts.points.length = rows.length) (h : tsLine ts kw tokens = .ok ts') :
    ts'.props = ts.props ∧ ColsOk ts'.props.esizes ts'.attrs (rows ++ (if kw = cs!"VRTX" ∨ kw = cs!"PVRTX" then [tokens.drop 5]
      else if kw = cs!"ATOM" ∨ kw = cs!"PATOM" then [tokens.drop 3] else [])) ∧
    ts'.points.length = (rows ++ (if kw = cs!"VRTX" ∨ kw = cs!"PVRTX" then [tokens.drop 5]
      else if kw = cs!"ATOM" ∨ kw = cs!"PATOM" then [tokens.drop 3] else [])).length := by
  unfold tsLine at h
  by_cases h1 : kw = cs!"VRTX" ∨ kw = cs!"PVRTX"
  · rw [if_pos h1] at h ⊢
    unfold tsVrtx at h
    obtain ⟨o, _, h⟩ := bind_eq_ok.1 h
    obtain ⟨p, _, h⟩ := bind_eq_ok.1 h
    obtain ⟨at', ha, h⟩ := bind_eq_ok.1 h
    cases h
    exact ⟨rfl, colsOk_snoc hc ha, by simp [hp]⟩
  · rw [if_neg h1] at h ⊢
    by_cases h2 : kw = cs!"ATOM" ∨ kw = cs!"PATOM"
    · rw [if_pos h2] at h ⊢
      unfold tsAtom at h
      obtain ⟨o, _, h⟩ := bind_eq_ok.1 h
      obtain ⟨p, _, h⟩ := bind_eq_ok.1 h
      obtain ⟨q, _, h⟩ := bind_eq_ok.1 h
      obtain ⟨at', ha, h⟩ := bind_eq_ok.1 h
      cases h
      exact ⟨rfl, colsOk_snoc hc ha, by simp [hp]⟩
    · rw [if_neg h2] at h ⊢
      have key : ts'.props = ts.props ∧ ts'.attrs = ts.attrs ∧ ts'.points = ts.points := by
        split at h
        · unfold tsTrgl at h
          obtain ⟨_, _, h⟩ := bind_eq_ok.1 h
          obtain ⟨_, _, h⟩ := bind_eq_ok.1 h
          obtain ⟨_, _, h⟩ := bind_eq_ok.1 h
          obtain ⟨_, _, h⟩ := bind_eq_ok.1 h
          obtain ⟨_, _, h⟩ := bind_eq_ok.1 h
          obtain ⟨_, _, h⟩ := bind_eq_ok.1 h
          cases h
          exact ⟨rfl, rfl, rfl⟩
        · split at h
          · unfold tsBstone at h
            obtain ⟨_, _, h⟩ := bind_eq_ok.1 h
            obtain ⟨_, _, h⟩ := bind_eq_ok.1 h
            cases h
            exact ⟨rfl, rfl, rfl⟩
          · split at h
            · unfold tsBorder at h
              obtain ⟨_, _, h⟩ := bind_eq_ok.1 h
              obtain ⟨_, _, h⟩ := bind_eq_ok.1 h
              obtain ⟨_, _, h⟩ := bind_eq_ok.1 h
              obtain ⟨_, _, h⟩ := bind_eq_ok.1 h
              cases h
              exact ⟨rfl, rfl, rfl⟩
            · split at h <;> (cases h; exact ⟨rfl, rfl, rfl⟩)
      obtain ⟨k1, k2, k3⟩ := key
      rw [k1, k2, k3, List.append_nil]
      exact ⟨rfl, hc, hp⟩

theorem readTfacesLoop_cols : ∀ (f : File) {ts ts' : TSurf D} {rest : File} {rows : List (List Str)}, ColsOk ts.props.esizes ts.attrs rows →
    ts.points.length = rows.length → readTfacesLoop ts f = .ok (ts', rest) →
    ts'.props = ts.props ∧ ColsOk ts'.props.esizes ts'.attrs (rows ++ (body f).filterMap tsRow) ∧
      ts'.points.length = (rows ++ (body f).filterMap tsRow).length := by
  intro f
  induction f with
  | nil => intro ts ts' rest rows _ _ h; cases h
  | cons l ls ih =>
    intro ts ts' rest rows hc hp h
    rw [readTfacesLoop.eq_def] at h
    cases hs : split l with
    | nil => simp only [hs] at h; cases h
    | cons kw args =>
      simp only [hs] at h
      by_cases hk : kw = cs!"END"
      · rw [if_pos hk] at h
        cases h
        have hb : body (l :: ls) = [] := by
          unfold body
          rw [List.takeWhile_cons_of_neg]
          simp [hs, hk]
        rw [hb]
        simp only [List.filterMap_nil, List.append_nil]
        exact ⟨rfl, hc, hp⟩
      · rw [if_neg hk] at h
        obtain ⟨t1, h1, h2⟩ := bind_eq_ok.1 h
        obtain ⟨k1, k2, k3⟩ := tsLine_cols hc hp h1
        have hb : body (l :: ls) = l :: body ls := by
          unfold body
          rw [List.takeWhile_cons_of_pos]
          simp [hs, hk]
        have hr : (body (l :: ls)).filterMap tsRow = (if kw = cs!"VRTX" ∨ kw = cs!"PVRTX" then [(kw :: args).drop 5]
            else if kw = cs!"ATOM" ∨ kw = cs!"PATOM" then [(kw :: args).drop 3] else []) ++ (body ls).filterMap tsRow := by
          rw [hb, List.filterMap_cons]
          unfold tsRow
          simp only [hs, List.head?_cons]
          by_cases h1 : kw = cs!"VRTX" ∨ kw = cs!"PVRTX"
          · rw [if_pos h1, if_pos h1]; rfl
          · rw [if_neg h1, if_neg h1]
            by_cases h2 : kw = cs!"ATOM" ∨ kw = cs!"PATOM"
            · rw [if_pos h2, if_pos h2]; rfl
            · rw [if_neg h2, if_neg h2]; rfl
        obtain ⟨j1, j2, j3⟩ := ih k2 k3 h2
        rw [hr, ← List.append_assoc]
        exact ⟨j1.trans k1, j2, j3⟩

theorem readVSetLoop_cols : ∀ (f : File) {s s' : VSet D} {rest : File} {rows : List (List Str)}, ColsOk s.props.esizes s.attrs rows →
    s.points.length = rows.length → readVSetLoop s f = .ok (s', rest) →
    s'.props = s.props ∧ ColsOk s'.props.esizes s'.attrs (rows ++ (body f).filterMap vsRow) ∧
      s'.points.length = (rows ++ (body f).filterMap vsRow).length := by
  intro f
  induction f with
  | nil => intro ts ts' rest rows _ _ h; cases h
  | cons l ls ih =>
    intro s s' rest rows hc hp h
    rw [readVSetLoop.eq_def] at h
    cases hs : split l with
    | nil => simp only [hs] at h; cases h
    | cons kw args =>
      simp only [hs] at h
      by_cases hk : kw = cs!"END"
      · rw [if_pos hk] at h
        cases h
        have hb : body (l :: ls) = [] := by
          unfold body
          rw [List.takeWhile_cons_of_neg]
          simp [hs, hk]
        rw [hb]
        rw [List.filterMap_nil, List.append_nil]
        exact ⟨rfl, hc, hp⟩
      · rw [if_neg hk] at h
        obtain ⟨t1, h1, h2⟩ := bind_eq_ok.1 h
        have hb : body (l :: ls) = l :: body ls := by
          unfold body
          rw [List.takeWhile_cons_of_pos]
          simp [hs, hk]
        unfold vsLine at h1
        by_cases hv : kw = cs!"VRTX" ∨ kw = cs!"PVRTX"
        · have hr : (body (l :: ls)).filterMap vsRow = [(kw :: args).drop 5] ++ (body ls).filterMap vsRow := by
            rw [hb, List.filterMap_cons]
            unfold vsRow
            simp only [hs, List.head?_cons]
            rw [if_pos hv]
            rfl
          rw [if_neg (by tauto)] at h1
          unfold vsVrtx at h1
          obtain ⟨o, _, h1⟩ := bind_eq_ok.1 h1
          obtain ⟨p, _, h1⟩ := bind_eq_ok.1 h1
          obtain ⟨at', ha, h1⟩ := bind_eq_ok.1 h1
          cases h1
          obtain ⟨j1, j2, j3⟩ := ih (rows := rows ++ [(kw :: args).drop 5]) (s := ⟨o, s.name, s.crs, s.props, s.points ++ [p], at'⟩)
            (colsOk_snoc hc ha) (by simp [hp]) h2
          rw [hr, ← List.append_assoc]
          exact ⟨j1, j2, j3⟩
        · have hr : (body (l :: ls)).filterMap vsRow = (body ls).filterMap vsRow := by
            rw [hb, List.filterMap_cons]
            unfold vsRow
            simp only [hs, List.head?_cons]
            rw [if_neg hv]
          rw [if_pos (by tauto)] at h1
          cases h1
          rw [hr]
          exact ih hc hp h2

/-! ## Attributes -/

/-- The attribute of the mesh that has the values. -/
theorem attributes_values {es : List Nat} {attrs : List (List D)} {rows : List (List Str)} (hc : ColsOk es attrs rows) {names : List Str} {ds : List D}
    {store : Store D} (hn : names.Nodup) (h : createAttributes rows.length (List.range rows.length) [] names es ds attrs = .ok store)
    {a : Nat} {name : Str} (ha : names[a]? = some name) (h0 : ∀ e : Nat, es[a]? = some e → e ≠ 0) :
    ∃ c, store.lookup name = some c ∧ es[a]? = some c.esize ∧ Values es a c.esize rows c.vals := by
  have h' : createAttributes (List.range rows.length).length (List.range rows.length) [] names es ds attrs = .ok store := by
    rw [List.length_range]; exact h
  obtain ⟨_, h2⟩ := createAttributes_lookup _ names hn (by simp) h'
  obtain ⟨e, col, c, q1, q2, q3, q4, q5⟩ := h2 a name ha
  subst q4
  refine ⟨c, q3, q1, ?_⟩
  obtain ⟨items, z1, z2⟩ := hc a _ q1
  rw [q2] at z1
  cases z1
  have hil : ∀ x ∈ items, x.length = c.esize := by
    intro x hx
    obtain ⟨k, hk⟩ := List.mem_iff_getElem?.1 hx
    have hk2 : k < rows.length := by rw [z2.length_eq]; exact (List.getElem?_eq_some_iff.1 hk).1
    obtain ⟨y, y1, y2, y3⟩ := forall₂_getElem? z2 (List.getElem?_eq_getElem hk2)
    rw [hk] at y1
    cases y1
    exact y3
  have hF := mapM'_inv q5
  have : c.vals = items := by
    apply List.ext_getElem?
    intro i
    by_cases hi : i < rows.length
    · have hr : (List.range rows.length)[i]? = some i := by rw [List.getElem?_range hi]
      obtain ⟨vs, w1, w2⟩ := forall₂_getElem? hF hr
      rw [w1]
      rcases itemsAt_flatten items hil _ w2 with he | he
      · exact absurd he (h0 _ q1)
      · exact he.symm
    · have e1 := hF.length_eq
      rw [List.length_range] at e1
      rw [List.getElem?_eq_none (by omega), List.getElem?_eq_none (by rw [← z2.length_eq]; omega)]
  rw [this]
  exact z2

/-- A TSurf read from a file, then made into a mesh of its own: the attribute of each property has, for each vertex, the values of the words of
the property on the line of the vertex, in order.  `f` is what follows the `TFACE` line. -/
theorem tsurf_values {f rest : File} {ts0 ts : TSurf D} (h0 : ts0.points = []) (h1 : ts0.attrs = ts0.props.names.map fun _ => [])
    (hlen : ts0.props.esizes.length = ts0.props.names.length) (h : readTfacesLoop ts0 f = .ok (ts, rest)) {l : Loaded Tri D}
    (hb : buildSurface {} ts = .ok l) (hn : ts0.props.names.Nodup) {a : Nat} {name : Str} (ha : ts0.props.names[a]? = some name)
    (he : ∀ e : Nat, ts0.props.esizes[a]? = some e → e ≠ 0) :
    ∃ c, l.store.lookup name = some c ∧ ts0.props.esizes[a]? = some c.esize ∧ l.points.length = ((body f).filterMap tsRow).length ∧
      Values ts0.props.esizes a c.esize ((body f).filterMap tsRow) c.vals := by
  have hc0 : ColsOk ts0.props.esizes ts0.attrs ([] : List (List Str)) := by
    intro a e ha
    refine ⟨[], ?_, .nil⟩
    have := (List.getElem?_eq_some_iff.1 ha).1
    rw [h1, List.getElem?_map, List.getElem?_eq_getElem (by omega)]
    rfl
  obtain ⟨k1, k2, k3⟩ := readTfacesLoop_cols f hc0 (by rw [h0]; rfl) h
  rw [List.nil_append, k1] at k2
  rw [List.nil_append] at k3
  unfold buildSurface at hb
  obtain ⟨tris, _, hb⟩ := bind_eq_ok.1 hb
  obtain ⟨store, hs, hb⟩ := bind_eq_ok.1 hb
  cases hb
  have hs : createAttributes ([] ++ ts.points).length (List.range ts.points.length) [] ts.props.names ts.props.esizes ts.props.noData ts.attrs
      = .ok store := hs
  rw [List.nil_append, k3, k1] at hs
  obtain ⟨c, q1, q2, q3⟩ := attributes_values k2 hn hs ha he
  exact ⟨c, q1, q2, by simp [k3], q3⟩

/-- The same for a VSet; `f` begins with the first vertex line. -/
theorem vset_values {f rest : File} {s0 s : VSet D} (h0 : s0.points = []) (h1 : s0.attrs = s0.props.names.map fun _ => [])
    (hlen : s0.props.esizes.length = s0.props.names.length) (h : readVSetLoop s0 f = .ok (s, rest)) {l : Loaded Empty D}
    (hb : buildPointSet {} s = .ok l) (hn : s0.props.names.Nodup) {a : Nat} {name : Str} (ha : s0.props.names[a]? = some name)
    (he : ∀ e : Nat, s0.props.esizes[a]? = some e → e ≠ 0) :
    ∃ c, l.store.lookup name = some c ∧ s0.props.esizes[a]? = some c.esize ∧ l.points.length = ((body f).filterMap vsRow).length ∧
      Values s0.props.esizes a c.esize ((body f).filterMap vsRow) c.vals := by
  have hc0 : ColsOk s0.props.esizes s0.attrs ([] : List (List Str)) := by
    intro a e ha
    refine ⟨[], ?_, .nil⟩
    have := (List.getElem?_eq_some_iff.1 ha).1
    rw [h1, List.getElem?_map, List.getElem?_eq_getElem (by omega)]
    rfl
  obtain ⟨k1, k2, k3⟩ := readVSetLoop_cols f hc0 (by rw [h0]; rfl) h
  rw [List.nil_append, k1] at k2
  rw [List.nil_append] at k3
  unfold buildPointSet at hb
  obtain ⟨store, hs, hb⟩ := bind_eq_ok.1 hb
  cases hb
  have hs : createAttributes ([] ++ s.points).length (List.range s.points.length) [] s.props.names s.props.esizes s.props.noData s.attrs
      = .ok store := hs
  rw [List.nil_append, k3, k1] at hs
  obtain ⟨c, q1, q2, q3⟩ := attributes_values k2 hn hs ha he
  exact ⟨c, q1, q2, by simp [k3], q3⟩

/-! ## Objects of a file -/

theorem takeN_length : ∀ (n : Nat) (ts : List Str) {r : List Str}, takeN n ts = .ok r → r.length = n := by
  intro n
  induction n with
  | zero => intro ts r h; cases h; rfl
  | succ n ih =>
    intro ts r h
    cases ts with
    | nil => cases h
    | cons t ts =>
      rw [takeN] at h
      obtain ⟨r', h1, h⟩ := bind_eq_ok.1 h
      cases h
      simp [ih _ h1]

/-- A header gives as many numbers of components as names. -/
theorem readPropHeader_lengths {pre : Str} {f f' : File} {h : PropHeader D} (hr : readPropHeader pre f = .ok (h, f')) :
    h.esizes.length = h.names.length := by
  rw [readPropHeader.eq_def] at hr
  cases hk : nextKeyword? (pre ++ cs!"PROPERTIES") f with
  | mk o g =>
    cases o with
    | none => rw [hk] at hr; cases hr; rfl
    | some l =>
      rw [hk] at hr
      obtain ⟨toks, _, hr⟩ := bind_eq_ok.1 hr
      simp only at hr
      split at hr
      · cases hr; rfl
      · obtain ⟨⟨_, _⟩, _, hr⟩ := bind_eq_ok.1 hr
        obtain ⟨⟨_, _⟩, _, hr⟩ := bind_eq_ok.1 hr
        obtain ⟨⟨_, _⟩, _, hr⟩ := bind_eq_ok.1 hr
        obtain ⟨⟨_, _⟩, _, hr⟩ := bind_eq_ok.1 hr
        obtain ⟨⟨_, _⟩, _, hr⟩ := bind_eq_ok.1 hr
        obtain ⟨⟨es, _⟩, h1, hr⟩ := bind_eq_ok.1 hr
        obtain ⟨⟨_, _⟩, _, hr⟩ := bind_eq_ok.1 hr
        cases hr
        unfold readOneIndex at h1
        obtain ⟨⟨_, _⟩, _, h1⟩ := bind_eq_ok.1 h1
        obtain ⟨ws, h2, h1⟩ := bind_eq_ok.1 h1
        obtain ⟨xs, h3, h1⟩ := bind_eq_ok.1 h1
        cases h1
        have e1 := takeN_length _ _ h2
        have e2 := (mapM'_inv h3).length_eq
        simp only
        omega

/-- What follows the first line beginning with `TFACE`. -/
def afterTface (f : File) : File := (f.dropWhile fun l => !startsWith l cs!"TFACE").tail

/-- What begins with the first line beginning with `VRTX` or `PVRTX`. -/
def fromVertex (f : File) : File := f.dropWhile fun l => !(startsWith l cs!"VRTX" || startsWith l cs!"PVRTX")

theorem gotoKeyword_tail {kw : Str} (f : File) {l : Str} {g : File} (h : gotoKeyword kw f = .ok (l, g)) :
    (f.dropWhile fun l => !startsWith l kw).tail = g := by
  induction f with
  | nil => cases h
  | cons a f ih =>
    unfold gotoKeyword at h
    rw [gotoKeyword?] at h
    by_cases hs : startsWith a kw = true
    · rw [if_pos hs] at h
      cases h
      rw [List.dropWhile_cons_of_neg (by simp [hs])]
      rfl
    · rw [if_neg hs] at h
      rw [List.dropWhile_cons_of_pos (by simp [hs])]
      exact ih h

/-- The values of a TSurf, from its header `props` and the lines `f` after the header. -/
theorem tsurf_object {f0 f rest : File} {name : Option Str} {crs : Crs} {props : PropHeader D} {ts : TSurf D}
    (hh : readPropHeader [] f0 = .ok (props, f))
    (h : readTfaces { name, crs, props, attrs := props.names.map (fun _ => []) } f = .ok (ts, rest)) {l : GocadMesh.Loaded Tri D}
    (hb : buildSurface {} ts = .ok l) (hn : props.names.Nodup) {a : Nat} {n : Str} (ha : props.names[a]? = some n)
    (he : ∀ e : Nat, props.esizes[a]? = some e → e ≠ 0) :
    ∃ c, l.store.lookup n = some c ∧ props.esizes[a]? = some c.esize ∧ l.points.length = ((body (afterTface f)).filterMap tsRow).length ∧
      Values props.esizes a c.esize ((body (afterTface f)).filterMap tsRow) c.vals := by
  unfold readTfaces at h
  obtain ⟨⟨t, g⟩, h1, h2⟩ := bind_eq_ok.1 h
  have e := gotoKeyword_tail f h1
  unfold afterTface
  rw [e]
  exact tsurf_values (ts0 := { name, crs, props, attrs := props.names.map (fun _ => []) }) rfl rfl (readPropHeader_lengths hh) h2 hb hn ha he

/-- The values of a VSet, from its header `props` and the lines `f` after the header. -/
theorem vset_object {f0 f rest : File} {name : Option Str} {crs : Crs} {props : PropHeader D} {s : VSet D}
    (hh : readPropHeader [] f0 = .ok (props, f))
    (h : readVSetVertices { name, crs, props, attrs := props.names.map (fun _ => []) } f = .ok (s, rest)) {l : GocadMesh.Loaded Empty D}
    (hb : buildPointSet {} s = .ok l) (hn : props.names.Nodup) {a : Nat} {n : Str} (ha : props.names[a]? = some n)
    (he : ∀ e : Nat, props.esizes[a]? = some e → e ≠ 0) :
    ∃ c, l.store.lookup n = some c ∧ props.esizes[a]? = some c.esize ∧ l.points.length = ((body (fromVertex f)).filterMap vsRow).length ∧
      Values props.esizes a c.esize ((body (fromVertex f)).filterMap vsRow) c.vals := by
  unfold readVSetVertices at h
  obtain ⟨⟨t, g⟩, h1, h2⟩ := bind_eq_ok.1 h
  have e := gotoKeywords_vertex f h1
  unfold fromVertex
  rw [e]
  exact vset_values (s0 := { name, crs, props, attrs := props.names.map (fun _ => []) }) rfl rfl (readPropHeader_lengths hh) h2 hb hn ha he

/-! ## Same name, several objects -/

/-- Numbers of components kept in the same type of attribute. -/
def SameKind (e e' : Nat) : Prop := e = e' ∨ ((e = 0 ∨ 3 < e) ∧ (e' = 0 ∨ 3 < e'))

theorem sameKind_iff (e e' : Nat) : storageKind e = storageKind e' ↔ SameKind e e' := by
  unfold storageKind SameKind
  split <;> split <;> omega

theorem lookup_putColumn (s : Store D) (name n : Str) (c : Column D) : (putColumn s name c).lookup n = if n = name then some c else s.lookup n := by
  induction s with
  | nil =>
    by_cases e : n = name
    · subst e; simp [putColumn, List.lookup]
    · have : (n == name) = false := by simpa using e
      simp [putColumn, List.lookup, this, e]
  | cons p s ih =>
    obtain ⟨k, v⟩ := p
    rw [putColumn]
    by_cases hk : k = name
    · subst hk
      rw [if_pos rfl]
      by_cases e : n = k
      · subst e; simp [List.lookup]
      · have : (n == k) = false := by simpa using e
        simp [List.lookup, this, e]
    · rw [if_neg hk, List.lookup_cons, ih, List.lookup_cons]
      by_cases e : n = k
      · subst e
        simp [hk]
      · have : (n == k) = false := by simpa using e
        simp [this]

/-- A property of an object added to a mesh that has an attribute of that name: the other vertices keep their values when the numbers of
components fit, and lose them for the no-data value otherwise. -/
theorem other_vertices {s r : Store D} {name : Str} {e nb : Nat} {d : D} {vals : List D} {inv : List Nat} {c : Column D}
    (hc : s.lookup name = some c) (h : createAttribute s name e d vals nb inv = .ok r) :
    (SameKind c.esize e → ∃ c', r.lookup name = some c' ∧ ∀ v : Nat, inv.length ≤ v → c'.vals[v]? = c.vals[v]?) ∧
    (¬ SameKind c.esize e → ∃ c', r.lookup name = some c' ∧ ∀ v : Nat, inv.length ≤ v → v < nb → c'.vals[v]? = some (List.replicate e d)) ∧
    ∀ n, n ≠ name → r.lookup n = s.lookup n := by
  unfold createAttribute at h
  obtain ⟨items, h1, h⟩ := bind_eq_ok.1 h
  obtain ⟨new, h2, h⟩ := bind_eq_ok.1 h
  cases h
  have hlen := (mapM'_inv h1).length_eq
  unfold setFrom at h2
  split at h2
  · rename_i hle
    cases h2
    have drop : ∀ v : Nat, inv.length ≤ v → (items ++ (findOrCreate s name e d nb).vals.drop items.length)[v]? = (findOrCreate s name e d nb).vals[v]? := by
      intro v hv
      rw [List.getElem?_append_right (by omega), List.getElem?_drop]
      congr 1
      omega
    refine ⟨?_, ?_, ?_⟩
    · intro hk
      have hf : findOrCreate s name e d nb = c := by
        unfold findOrCreate
        rw [hc]
        exact if_pos ((sameKind_iff _ _).2 hk)
      rw [hf] at drop ⊢
      refine ⟨_, by rw [lookup_putColumn, if_pos rfl], ?_⟩
      exact drop
    · intro hk
      have hf : findOrCreate s name e d nb = ⟨e, d, List.replicate nb (List.replicate e d)⟩ := by
        unfold findOrCreate
        rw [hc]
        exact if_neg fun x => hk ((sameKind_iff _ _).1 x)
      rw [hf] at drop ⊢
      refine ⟨_, by rw [lookup_putColumn, if_pos rfl], ?_⟩
      intro v hv hnb
      have := drop v hv
      simp only at this ⊢
      rw [this, List.getElem?_replicate_of_lt hnb]
    · intro n hn
      rw [lookup_putColumn, if_neg hn]
  · cases h2

/-! ## Examples -/

/-- A set of two points with a vector, a scalar and a property of four components. -/
def sample : File :=
  [cs!"GOCAD VSet 1", cs!"HEADER {", cs!"name:a", cs!"}", cs!"PROPERTIES v s w", cs!"PROP_LEGAL_RANGES **none** **none** **none** **none** **none** **none**",
    cs!"NO_DATA_VALUES -1 -2 -3", cs!"PROPERTY_CLASSES v s w", cs!"PROPERTY_KINDS a b c",
    cs!"PROPERTY_SUBCLASSES QUANTITY Float QUANTITY Float QUANTITY Float", cs!"ESIZES 3 1 4", cs!"UNITS m m m",
    cs!"PVRTX 1 0 0 0 1 2 3 4 5 6 7 8", cs!"PVRTX 2 5 5 5 11 12 13 14 15 16 17 18", cs!"END"]

example : (loadVS sample : Res (GocadMesh.Loaded Empty Int)) = .ok ⟨some cs!"a", [⟨0, 0, 0⟩, ⟨5, 5, 5⟩], [],
    [(cs!"v", ⟨3, -1, [[1, 2, 3], [11, 12, 13]]⟩), (cs!"s", ⟨1, -2, [[4], [14]]⟩), (cs!"w", ⟨4, -3, [[5, 6, 7, 8], [15, 16, 17, 18]]⟩)]⟩ := by
  decide +kernel

/-- The same name with one then two components: the values of the first object are lost. -/
theorem other_object_loses : createAttribute [(cs!"p", ⟨1, 0, [[1], [2], [3]]⟩)] cs!"p" 2 (-9 : Int) [7, 8] 3 [0] =
    .ok [(cs!"p", ⟨2, -9, [[7, 8], [-9, -9], [-9, -9]]⟩)] := by decide +kernel

end Verif.Props.GocadVectors
