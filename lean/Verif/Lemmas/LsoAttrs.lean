import Verif.Lemmas.GocadAttrs
import Verif.Lemmas.LsoPoints
import Verif.Model.StratiLso

/-! # Lemmas on the properties of the vertices of LightSolid files -/

set_option linter.unusedSectionVars false

namespace Verif.Lso

open Verif Verif.Gocad Verif.GocadMesh Res

variable {D : Type} [Num D]

/-- Words of the properties on a line of a vertex. -/
def propTokens (l : Str) : List Str := (split l).drop (if startsWith l cs!"SHARED" then 3 else 5)

/-- Words of the property number `a` on a line of a vertex: each property has as many words as its size, in the order of the header. -/
def propWords (esizes : List Nat) (a : Nat) (toks : List Str) : List Str := (toks.drop (esizes.take a).sum).take (esizes.getD a 0)

/-- The lines of the vertices: from the first line that starts with `VRTX` or `PVRTX` to the last line before one without `VRTX`. -/
def vertexLines (f : File) : List Str :=
  match f.dropWhile fun l => !(startsWith l cs!"VRTX" || startsWith l cs!"PVRTX") with
  | [] => []
  | l :: ls => l :: ls.takeWhile (contains cs!"VRTX")

/-- The headers of the file: the sign of the depths, the properties of the vertices, those of the tetrahedra, and the lines after them. -/
def headersOf (f : File) : Res (Bool × PropHeader D × PropHeader D × File) := do
  let (_, f) ← gotoKeyword cs!"GOCAD LightTSolid" f
  let (_, f) ← readHeader f
  let (crs, f) ← readCrs f
  let (vh, f) ← readPropHeader [] f
  let (th, f) ← readPropHeader cs!"TETRA_" f
  pure (crs.zPos, vh, th, f)

theorem readItems_ok : ∀ (e : Nat) {toks : List Str} {vs : List D} {rest : List Str}, readItems e toks = .ok (vs, rest) →
    Res.mapM' readDouble (toks.take e) = .ok vs ∧ vs.length = e ∧ rest = toks.drop e
  | 0, toks, vs, rest, h => by
    rw [readItems.eq_def] at h
    cases h
    simp
  | e + 1, [], vs, rest, h => by
    rw [readItems.eq_def] at h
    cases h
  | e + 1, t :: toks, vs, rest, h => by
    rw [readItems.eq_def] at h
    obtain ⟨v, h1, h2⟩ := bind_eq_ok.1 h
    obtain ⟨⟨vs', rest'⟩, h3, h4⟩ := bind_eq_ok.1 h2
    cases h4
    obtain ⟨e1, e2, e3⟩ := readItems_ok e h3
    refine ⟨?_, by simp [e2], by simp [e3]⟩
    rw [List.take_succ_cons, mapM'_cons, h1, ok_bind, e1]
    rfl

theorem readProperties_ok : ∀ (es : List Nat) {cols cols' : List (List D)} {toks : List Str}, readProperties es cols toks = .ok cols' →
    cols'.length = cols.length ∧ ∀ a e : Nat, es[a]? = some e → ∃ col vs, cols[a]? = some col ∧ cols'[a]? = some (col ++ vs) ∧
      Res.mapM' readDouble (propWords es a toks) = .ok vs ∧ vs.length = e
  | [], cols, cols', toks, h => by
    rw [readProperties.eq_def] at h
    cases h
    simp
  | e :: es, [], cols', toks, h => by
    rw [readProperties.eq_def] at h
    cases h
  | e :: es, c :: cols, cols', toks, h => by
    rw [readProperties.eq_def] at h
    obtain ⟨⟨vs, rest⟩, h1, h2⟩ := bind_eq_ok.1 h
    obtain ⟨r, h3, h4⟩ := bind_eq_ok.1 h2
    cases h4
    obtain ⟨e1, e2, e3⟩ := readItems_ok e h1
    obtain ⟨e4, e5⟩ := readProperties_ok es h3
    refine ⟨by simp [e4], ?_⟩
    intro a x ha
    cases a with
    | zero =>
      simp only [List.getElem?_cons_zero, Option.some.injEq] at ha
      subst ha
      exact ⟨c, vs, by simp, by simp, by simpa [propWords] using e1, e2⟩
    | succ a =>
      simp only [List.getElem?_cons_succ] at ha
      obtain ⟨col, vs', q1, q2, q3, q4⟩ := e5 a x ha
      refine ⟨col, vs', by simpa using q1, by simpa using q2, ?_, q4⟩
      rw [← q3, e3]
      unfold propWords
      rw [List.take_succ_cons, List.sum_cons, List.getD_cons_succ, List.drop_drop]

/-- What is known of the columns after `lines` have been read. -/
def Columns (esizes : List Nat) (s : Solid D) (lines : List Str) : Prop :=
  s.points.length = lines.length ∧ ∀ a e : Nat, esizes[a]? = some e → ∃ items : List (List D), s.vattrs[a]? = some items.flatten ∧
    List.Forall₂ (fun l vs => Res.mapM' readDouble (propWords esizes a (propTokens l)) = .ok vs ∧ vs.length = e) lines items

theorem forall₂_snoc {α β : Type} {R : α → β → Prop} {l : List α} {r : List β} (h : List.Forall₂ R l r) {a : α} {b : β} (hab : R a b) :
    List.Forall₂ R (l ++ [a]) (r ++ [b]) := by
  induction h with
  | nil => exact .cons hab .nil
  | cons h1 _ ih => exact .cons h1 ih

theorem readVertex_columns {zPos : Bool} {esizes : List Nat} {s s' : Solid D} {l : Str} {lines : List Str} (h : Columns esizes s lines)
    (hr : readVertex zPos esizes s l = .ok s') : Columns esizes s' (lines ++ [l]) := by
  have key : ∃ vattrs, readProperties esizes s.vattrs (propTokens l) = .ok vattrs ∧ s'.vattrs = vattrs ∧ s'.points.length = s.points.length + 1 := by
    unfold readVertex at hr
    unfold propTokens
    by_cases hs : startsWith l cs!"SHARED" = true
    · simp only [if_pos hs] at hr ⊢
      obtain ⟨w, _, h1⟩ := bind_eq_ok.1 hr
      obtain ⟨n, _, h2⟩ := bind_eq_ok.1 h1
      obtain ⟨p, _, h3⟩ := bind_eq_ok.1 h2
      obtain ⟨va, h4, h5⟩ := bind_eq_ok.1 h3
      split at h5
      · cases h5
        exact ⟨va, h4, rfl, by simp⟩
      · cases h5
    · simp only [if_neg hs] at hr ⊢
      obtain ⟨p, _, h3⟩ := bind_eq_ok.1 hr
      obtain ⟨va, h4, h5⟩ := bind_eq_ok.1 h3
      cases h5
      exact ⟨va, h4, rfl, by simp⟩
  obtain ⟨va, h1, h2, h3⟩ := key
  obtain ⟨_, h5⟩ := readProperties_ok _ h1
  refine ⟨by rw [h3, h.1]; simp, ?_⟩
  intro a e ha
  obtain ⟨items, q1, q2⟩ := h.2 a e ha
  obtain ⟨col, vs, q3, q4, q5, q6⟩ := h5 a e ha
  rw [q1] at q3
  cases q3
  exact ⟨items ++ [vs], by rw [h2, q4]; simp, forall₂_snoc q2 ⟨q5, q6⟩⟩

theorem readVerticesLoop_columns (zPos : Bool) (esizes : List Nat) : ∀ (f : File) {s s' : Solid D} {l : Str} {rest : File} {lines : List Str},
    Columns esizes s lines → readVerticesLoop zPos esizes s f = .ok (s', l, rest) →
    Columns esizes s' (lines ++ f.takeWhile (contains cs!"VRTX"))
  | [], s, s', l, rest, lines, h, hr => by
    rw [readVerticesLoop.eq_def] at hr
    cases hr
    simpa using h
  | x :: f, s, s', l, rest, lines, h, hr => by
    rw [readVerticesLoop.eq_def] at hr
    simp only at hr
    by_cases hc : contains cs!"VRTX" x = true
    · rw [if_pos hc] at hr
      obtain ⟨s1, h1, h2⟩ := bind_eq_ok.1 hr
      have := readVerticesLoop_columns zPos esizes f (readVertex_columns h h1) h2
      rw [List.takeWhile_cons_of_pos hc]
      simpa using this
    · rw [if_neg hc] at hr
      cases hr
      rw [List.takeWhile_cons_of_neg hc]
      simpa using h

theorem gotoKeywords_vertex (f : File) : ∀ {l : Str} {rest : File}, gotoKeywords [cs!"VRTX", cs!"PVRTX"] f = .ok (l, rest) →
    f.dropWhile (fun l => !(startsWith l cs!"VRTX" || startsWith l cs!"PVRTX")) = l :: rest := by
  induction f with
  | nil => intro l rest h; cases h
  | cons x f ih =>
    intro l rest h
    rw [gotoKeywords.eq_def] at h
    simp only [List.any_cons, List.any_nil, Bool.or_false] at h
    by_cases hc : (startsWith x cs!"VRTX" || startsWith x cs!"PVRTX") = true
    · rw [if_pos hc] at h
      cases h
      rw [List.dropWhile_cons_of_neg (by rw [hc]; decide)]
    · rw [if_neg hc] at h
      rw [List.dropWhile_cons_of_pos (by rw [Bool.not_eq_true] at hc; rw [hc]; rfl)]
      exact ih h

theorem readVertices_columns {zPos : Bool} {esizes : List Nat} {s s' : Solid D} {f : File} {l : Str} {rest : File} (h : Columns esizes s [])
    (hr : readVertices zPos esizes s f = .ok (s', l, rest)) : Columns esizes s' (vertexLines f) := by
  unfold readVertices at hr
  obtain ⟨⟨x, f'⟩, h1, h2⟩ := bind_eq_ok.1 hr
  obtain ⟨s1, h3, h4⟩ := bind_eq_ok.1 h2
  unfold vertexLines
  rw [gotoKeywords_vertex _ h1]
  exact readVerticesLoop_columns zPos esizes f' (readVertex_columns h h3) h4

/-! ## The other parts of the loader do not change the vertices -/

theorem readTetra_vertices {esizes : List Nat} {s s' : Solid D} {l l2 : Str} (h : readTetra esizes s l l2 = .ok s') :
    s'.points = s.points ∧ s'.vattrs = s.vattrs := by
  unfold readTetra at h
  obtain ⟨_, _, h⟩ := bind_eq_ok.1 h
  obtain ⟨_, _, h⟩ := bind_eq_ok.1 h
  obtain ⟨_, _, h⟩ := bind_eq_ok.1 h
  obtain ⟨_, _, h⟩ := bind_eq_ok.1 h
  cases h
  exact ⟨rfl, rfl⟩

theorem readTetras_vertices (esizes : List Nat) (n : Nat) : ∀ (f : File), f.length ≤ n → ∀ {s s' : Solid D} {l l' : Str} {rest : File},
    readTetras esizes s l f = .ok (s', l', rest) → s'.points = s.points ∧ s'.vattrs = s.vattrs := by
  induction n with
  | zero =>
    intro f hf s s' l l' rest h
    cases f with
    | nil =>
      rw [readTetras.eq_def] at h
      obtain ⟨s1, h1, h2⟩ := bind_eq_ok.1 h
      cases h2
      exact readTetra_vertices h1
    | cons x f => simp at hf
  | succ n ih =>
    intro f hf s s' l l' rest h
    rw [readTetras.eq_def] at h
    match f, hf, h with
    | [], _, h =>
      obtain ⟨s1, h1, h2⟩ := bind_eq_ok.1 h
      cases h2
      exact readTetra_vertices h1
    | [x], _, h =>
      obtain ⟨s1, h1, h2⟩ := bind_eq_ok.1 h
      cases h2
      exact readTetra_vertices h1
    | x :: y :: f, hf, h =>
      obtain ⟨s1, h1, h2⟩ := bind_eq_ok.1 h
      obtain ⟨e1, e2⟩ := readTetra_vertices h1
      split at h2
      · obtain ⟨e3, e4⟩ := ih f (by simp at hf; omega) h2
        exact ⟨e3.trans e1, e4.trans e2⟩
      · cases h2
        exact ⟨e1, e2⟩

theorem readBlocks_mem {h : Headers D} {s : Solid D} {st : RState} : ∀ (f : File) {bs : List (RBlock D)} {i : Bool} {l : Str}
    {r : List (RBlock D) × Bool}, readBlocks h s st (bs, i) l f = .ok r →
    ∀ b ∈ r.1, b ∈ bs ∨ ∃ l' j, readBlock h s st l' = .ok (b, j)
  | [], bs, i, l, r, hr, b, hb => by
    rw [readBlocks.eq_def] at hr
    simp only at hr
    split at hr
    · obtain ⟨⟨b', j⟩, h1, h2⟩ := bind_eq_ok.1 hr
      cases h2
      rcases List.mem_append.1 hb with hb | hb
      · exact .inl hb
      · rw [List.mem_singleton] at hb
        subst hb
        exact .inr ⟨l, j, h1⟩
    · cases hr
      exact .inl hb
  | l2 :: f, bs, i, l, r, hr, b, hb => by
    rw [readBlocks.eq_def] at hr
    simp only at hr
    split at hr
    · obtain ⟨⟨b', j⟩, h1, h2⟩ := bind_eq_ok.1 hr
      rcases readBlocks_mem f h2 b hb with hb | hb
      · rcases List.mem_append.1 hb with hb | hb
        · exact .inl hb
        · rw [List.mem_singleton] at hb
          subst hb
          exact .inr ⟨l, j, h1⟩
      · exact .inr hb
    · cases hr
      exact .inl hb

/-! ## Attributes of a block -/

theorem lookup_snoc {s : Store D} {n n' : Str} {c : Column D} (h : n ∉ s.map Prod.fst) :
    (s ++ [(n, c)]).lookup n' = if n' = n then some c else s.lookup n' := by
  induction s with
  | nil =>
    by_cases e : n' = n
    · subst e; simp [List.lookup]
    · have : (n' == n) = false := by simpa using e
      simp [List.lookup, this, e]
  | cons p s ih =>
    obtain ⟨k, v⟩ := p
    simp only [List.map_cons, List.mem_cons, not_or] at h
    simp only [List.cons_append, List.lookup_cons]
    by_cases e : (n' == k) = true
    · have e2 : n' = k := by simpa using e
      have e3 : ¬ n' = n := fun q => h.1 (q.symm.trans e2)
      simp [e, e3]
    · simp [e, ih h.2]

/-- New attributes: each has its own values for the elements `inv`. -/
theorem createAttributes_lookup (inv : List Nat) : ∀ (names : List Str) {s r : Store D} {es : List Nat} {ds : List D}
    {vals : List (List D)}, names.Nodup → (∀ n ∈ names, n ∉ s.map Prod.fst) → createAttributes inv.length inv s names es ds vals = .ok r →
    (∀ n, n ∉ names → r.lookup n = s.lookup n) ∧
    ∀ (a : Nat) (n : Str), names[a]? = some n → ∃ (e : Nat) (col : List D) (c : Column D), es[a]? = some e ∧ vals[a]? = some col ∧ r.lookup n = some c ∧ c.esize = e ∧
      Res.mapM' (itemsAt col e) inv = .ok c.vals
  | [], s, r, es, ds, vals, hn, hs, h => by
    rw [createAttributes.eq_def] at h
    cases h
    simp
  | n :: ns, s, r, [], ds, vals, hn, hs, h => by
    rw [createAttributes.eq_def] at h
    cases h
  | n :: ns, s, r, e :: es, [], vals, hn, hs, h => by
    rw [createAttributes.eq_def] at h
    cases h
  | n :: ns, s, r, e :: es, d :: ds, [], hn, hs, h => by
    rw [createAttributes.eq_def] at h
    cases h
  | n :: ns, s, r, e :: es, d :: ds, v :: vs, hn, hs, h => by
    rw [createAttributes.eq_def] at h
    obtain ⟨s1, h1, h2⟩ := bind_eq_ok.1 h
    have hns : n ∉ s.map Prod.fst := hs n (by simp)
    have key : ∃ items, Res.mapM' (itemsAt v e) inv = .ok items ∧ s1 = s ++ [(n, ⟨e, d, items⟩)] := by
      unfold createAttribute at h1
      obtain ⟨items, h3, h4⟩ := bind_eq_ok.1 h1
      obtain ⟨new, h5, h6⟩ := bind_eq_ok.1 h4
      have hlen : items.length = inv.length := (mapM'_inv h3).length_eq.symm
      rw [findOrCreate, lookup_eq_none hns] at h5 h6
      unfold setFrom at h5
      rw [if_pos (by simp [hlen])] at h5
      have e5 : new = items := by
        have := Res.ok.inj h5
        simpa [hlen] using this.symm
      have e6 := Res.ok.inj h6
      rw [putColumn_new hns] at e6
      exact ⟨items, h3, by rw [← e6, e5]⟩
    obtain ⟨items, h3, e1⟩ := key
    obtain ⟨hn1, hn2⟩ := List.nodup_cons.1 hn
    have hs1 : ∀ n' ∈ ns, n' ∉ s1.map Prod.fst := by
      intro n' hn' hc
      rw [e1] at hc
      simp only [List.map_append, List.map_cons, List.map_nil, List.mem_append, List.mem_singleton] at hc
      rcases hc with hc | hc
      · exact hs n' (by simp [hn']) hc
      · exact hn1 (hc ▸ hn')
    obtain ⟨q1, q2⟩ := createAttributes_lookup inv ns hn2 hs1 h2
    refine ⟨?_, ?_⟩
    · intro n' hn'
      simp only [List.mem_cons, not_or] at hn'
      rw [q1 n' hn'.2, e1, lookup_snoc hns, if_neg hn'.1]
    · intro a n' ha
      cases a with
      | zero =>
        simp only [List.getElem?_cons_zero, Option.some.injEq] at ha
        subst ha
        refine ⟨e, v, ⟨e, d, items⟩, by simp, by simp, ?_, rfl, h3⟩
        rw [q1 n hn1, e1, lookup_snoc hns, if_pos rfl]
      | succ a =>
        simp only [List.getElem?_cons_succ] at ha
        obtain ⟨e', col, c, z1, z2, z3⟩ := q2 a n' ha
        exact ⟨e', col, c, by simpa using z1, by simpa using z2, z3⟩

/-- The items of element `i` in the concatenation of items of the same size. -/
theorem itemsAt_flatten {e : Nat} : ∀ (items : List (List D)), (∀ x ∈ items, x.length = e) → ∀ (i : Nat) {r : List D},
    itemsAt items.flatten e i = .ok r → e = 0 ∨ items[i]? = some r := by
  intro items hl i r h
  by_cases he : e = 0
  · exact .inl he
  refine .inr ?_
  unfold itemsAt at h
  have hF := mapM'_inv h
  have hlen := hF.length_eq
  have hfl : ∀ (items : List (List D)), (∀ x ∈ items, x.length = e) → ∀ i k : Nat, k < e → items.flatten[i * e + k]? = (items[i]?).bind fun x => x[k]? := by
    intro items
    induction items with
    | nil => simp
    | cons x items ih =>
      intro hl i k hk
      have hx := hl x (by simp)
      cases i with
      | zero => simp [List.getElem?_append_left (by omega : k < x.length)]
      | succ i =>
        rw [List.flatten_cons, List.getElem?_append_right (by rw [hx, Nat.succ_mul]; omega)]
        have : (i + 1) * e + k - x.length = i * e + k := by rw [hx, Nat.succ_mul]; omega
        rw [this, ih (fun y hy => hl y (by simp [hy])) i k hk]
        simp
  have hat : ∀ k : Nat, k < e → ∃ x, r[k]? = some x ∧ items.flatten[i * e + k]? = some x := by
    intro k hk
    have hr' : (List.range' (i * e) e)[k]? = some (i * e + k) := by
      rw [List.getElem?_range' hk]; simp
    obtain ⟨x, hx1, hx2⟩ := forall₂_getElem? hF hr'
    exact ⟨x, hx1, index_eq_ok.1 hx2⟩
  cases hi : items[i]? with
  | none =>
    obtain ⟨x, _, h2⟩ := hat 0 (by omega)
    rw [hfl items hl i 0 (by omega), hi] at h2
    cases h2
  | some y =>
    congr 1
    have hy : y.length = e := hl y (List.mem_of_getElem? hi)
    have hrl : r.length = e := by rw [← hlen]; simp
    apply List.ext_getElem?
    intro k
    by_cases hk : k < e
    · obtain ⟨x, h1, h2⟩ := hat k hk
      rw [hfl items hl i k hk, hi] at h2
      rw [h1]
      exact h2
    · rw [List.getElem?_eq_none (by omega), List.getElem?_eq_none (by omega)]

end Verif.Lso
