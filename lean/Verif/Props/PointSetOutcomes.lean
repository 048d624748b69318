import Verif.Props.CurveOutcomes
import Verif.Props.GocadVectors
import Verif.Props.VSet

/-!
# C157: which point set files load

As `Props.CurveOutcomes`, for `.vs` files.  The values of the properties are the subject of `Props.GocadVectors`.  Theorems about `Model.Gocad` and
`Model.GocadMesh`.
-/

namespace Verif.Props.PointSetOutcomes

open Verif Verif.Gocad Verif.GocadMesh Verif.Props.WlOutcomes Verif.Props.CurveOutcomes Res

variable {D : Type} [Num D]

/-! ## The values of the properties -/

/-- There is a number for each component of the properties. -/
def Valued (D : Type) [Num D] (es : List Nat) (ws : List Str) : Prop := es.sum ≤ ws.length ∧ ∀ w ∈ ws.take es.sum, ∃ v : D, Num.parse w = some v

theorem items_iff (e : Nat) (ws : List Str) : (∃ r, (readItems e ws : Res (List D × List Str)) = .ok r) ↔
    e ≤ ws.length ∧ ∀ w ∈ ws.take e, ∃ v : D, Num.parse w = some v := by
  induction e generalizing ws with
  | zero => simp [readItems]
  | succ e ih =>
    cases ws with
    | nil => simp [readItems]
    | cons w ws =>
      rw [readItems]
      have ih := ih ws
      constructor
      · rintro ⟨r, h⟩
        obtain ⟨v, h1, h⟩ := bind_eq_ok.1 h
        obtain ⟨x, h2, h⟩ := bind_eq_ok.1 h
        obtain ⟨h3, h4⟩ := ih.1 ⟨x, h2⟩
        refine ⟨by simp; omega, ?_⟩
        intro y hy
        rw [List.take_succ_cons] at hy
        rcases List.mem_cons.1 hy with rfl | hy
        · unfold readDouble at h1
          cases hp : (Num.parse y : Option D) with
          | none => rw [hp] at h1; cases h1
          | some z => exact ⟨z, rfl⟩
        · exact h4 y hy
      · rintro ⟨h1, h2⟩
        obtain ⟨v, hv⟩ := h2 w (by simp)
        obtain ⟨r, hr⟩ := ih.2 ⟨by simpa using h1, fun y hy => h2 y (by rw [List.take_succ_cons]; exact List.mem_cons_of_mem _ hy)⟩
        exact ⟨_, by rw [readDouble, hv, ofParse_some, ok_bind, hr]; rfl⟩

theorem properties_iff (es : List Nat) (cols : List (List D)) (hl : es.length = cols.length) (ws : List Str) :
    (∃ cols', readProperties es cols ws = .ok cols') ↔ Valued D es ws := by
  induction es generalizing cols ws with
  | nil => simp [readProperties, Valued]
  | cons e es ih =>
    cases cols with
    | nil => simp at hl
    | cons c cols =>
      rw [readProperties]
      have hsplit : Valued D (e :: es) ws ↔ (e ≤ ws.length ∧ ∀ w ∈ ws.take e, ∃ v : D, Num.parse w = some v) ∧ Valued D es (ws.drop e) := by
        unfold Valued
        rw [List.sum_cons, List.length_drop, List.take_add]
        simp only [List.mem_append]
        constructor
        · rintro ⟨h1, h2⟩
          exact ⟨⟨by omega, fun w hw => h2 w (Or.inl hw)⟩, by omega, fun w hw => h2 w (Or.inr hw)⟩
        · rintro ⟨⟨h1, h2⟩, h3, h4⟩
          refine ⟨by omega, fun w hw => ?_⟩
          rcases hw with hw | hw
          · exact h2 w hw
          · exact h4 w hw
      rw [hsplit, ← items_iff (D := D)]
      constructor
      · rintro ⟨r, h⟩
        obtain ⟨⟨vs, rest⟩, h1, h⟩ := bind_eq_ok.1 h
        obtain ⟨cols', h2, h⟩ := bind_eq_ok.1 h
        obtain ⟨-, -, rfl⟩ := Lso.readItems_ok e h1
        exact ⟨⟨_, h1⟩, (ih cols (by simpa using hl) _).1 ⟨cols', h2⟩⟩
      · rintro ⟨⟨⟨vs, rest⟩, h1⟩, h2⟩
        obtain ⟨-, -, rfl⟩ := Lso.readItems_ok e h1
        obtain ⟨cols', h3⟩ := (ih cols (by simpa using hl) _).2 h2
        exact ⟨_, by rw [h1, ok_bind]; dsimp only; rw [h3]; rfl⟩

/-- The columns of the properties when there are `n` vertices. -/
structure Filled (h : PropHeader D) (attrs : List (List D)) (n : Nat) : Prop where
  sizes : h.esizes.length = h.names.length
  noData : h.noData.length = h.names.length
  cols : attrs.length = h.names.length
  lengths : ∀ (i e : Nat) (v : List D), h.esizes[i]? = some e → attrs[i]? = some v → v.length = n * e

theorem filled_step {h : PropHeader D} {attrs attrs' : List (List D)} {n : Nat} (hf : Filled h attrs n) {ws : List Str}
    (hr : readProperties h.esizes attrs ws = .ok attrs') : Filled h attrs' (n + 1) := by
  obtain ⟨h1, h2⟩ := Lso.readProperties_ok _ hr
  refine ⟨hf.sizes, hf.noData, h1.trans hf.cols, ?_⟩
  intro i e v he hv
  obtain ⟨col, vs, q1, q2, -, q4⟩ := h2 i e he
  rw [hv] at q2
  cases q2
  rw [List.length_append, hf.lengths i e col he q1, q4, Nat.succ_mul]

theorem header_lengths {pre : Str} {f f' : File} {h : PropHeader D} (hr : readPropHeader pre f = .ok (h, f')) :
    Filled h (h.names.map fun _ => []) 0 := by
  refine ⟨GocadVectors.readPropHeader_lengths hr, ?_, by simp, ?_⟩
  · rw [readPropHeader.eq_def] at hr
    cases hk : nextKeyword? (pre ++ cs!"PROPERTIES") f with
    | mk o g =>
      cases o with
      | none => rw [hk] at hr; cases hr; rfl
      | some l =>
        rw [hk] at hr
        obtain ⟨toks, _, hr⟩ := bind_eq_ok.1 hr
        simp only at hr
        split at hr
        · cases hr; rfl
        · obtain ⟨⟨_, _⟩, _, hr⟩ := bind_eq_ok.1 hr
          obtain ⟨⟨nd, _⟩, h1, hr⟩ := bind_eq_ok.1 hr
          obtain ⟨⟨_, _⟩, _, hr⟩ := bind_eq_ok.1 hr
          obtain ⟨⟨_, _⟩, _, hr⟩ := bind_eq_ok.1 hr
          obtain ⟨⟨_, _⟩, _, hr⟩ := bind_eq_ok.1 hr
          obtain ⟨⟨_, _⟩, _, hr⟩ := bind_eq_ok.1 hr
          obtain ⟨⟨_, _⟩, _, hr⟩ := bind_eq_ok.1 hr
          cases hr
          unfold readOneDouble at h1
          obtain ⟨⟨_, _⟩, _, h1⟩ := bind_eq_ok.1 h1
          obtain ⟨ws, h2, h1⟩ := bind_eq_ok.1 h1
          obtain ⟨xs, h3, h1⟩ := bind_eq_ok.1 h1
          cases h1
          have e1 := GocadVectors.takeN_length _ _ h2
          have e2 := (Lso.mapM'_inv h3).length_eq
          simp only
          omega
  · intro i e v _ hv
    rw [List.getElem?_map] at hv
    cases hn : h.names[i]? with
    | none => rw [hn] at hv; cases hv
    | some x => rw [hn] at hv; cases hv; simp

/-! ## The lines of an object -/

theorem until_cons {l : Str} {f body rest : File} (h : split l ≠ []) (h' : isEnd l = false) : Until (l :: f) (l :: body) rest ↔ Until f body rest := by
  unfold Until
  constructor
  · rintro ⟨h1, e, he, hE⟩
    exact ⟨fun x hx => h1 x (by simp [hx]), e, (List.cons.inj he).2, hE⟩
  · rintro ⟨h1, e, rfl, hE⟩
    refine ⟨?_, e, rfl, hE⟩
    intro x hx
    rcases List.mem_cons.1 hx with rfl | hx
    · exact ⟨h, h'⟩
    · exact h1 x hx

theorem until_shape {l : Str} {f body rest : File} (h : isEnd l = false) (hu : Until (l :: f) body rest) : ∃ b, body = l :: b := by
  obtain ⟨-, e, he, hE⟩ := hu
  cases body with
  | nil => rw [(List.cons.inj he).1] at h; rw [h] at hE; cases hE
  | cons x xs => exact ⟨xs, by rw [(List.cons.inj he).1]⟩

theorem until_end {l : Str} {f body rest : File} (h : isEnd l = true) : Until (l :: f) body rest ↔ body = [] ∧ rest = f := by
  constructor
  · rintro ⟨h1, e, he, hE⟩
    cases body with
    | nil => exact ⟨rfl, (List.cons.inj he).2.symm⟩
    | cons x xs =>
      have := (h1 x (by simp)).2
      rw [← (List.cons.inj he).1, h] at this
      cases this
  · rintro ⟨rfl, rfl⟩
    exact ⟨by simp, l, rfl, h⟩

/-- The points of the lines of an object that already has the points `prev`: the vertices have coordinates and values, and the first one a number. -/
def Points (up : Bool) (es : List Nat) (prev : List (Pt D)) (ls : File) (ps : List (Pt D)) : Prop :=
  List.Forall₂ (fun l p => Coordinates up l p ∧ Valued D es ((split l).drop 5)) (ls.filter isVertex) ps ∧
    (prev = [] → ∀ l ∈ (ls.filter isVertex).head?, ∃ n, Number l n)

theorem vsLine_vertex {vs : VSet D} {l k : Str} {args : List Str} (hs : split l = k :: args) (hv : isVertex l = true) {vs' : VSet D} :
    vsLine vs k (k :: args) = .ok vs' ↔ ∃ o p as, (if vs.points = [] then Number l o else o = vs.offset) ∧ Coordinates vs.crs.zPos l p ∧
      readProperties vs.props.esizes vs.attrs ((split l).drop 5) = .ok as ∧ vs' = { vs with offset := o, points := vs.points ++ [p], attrs := as } := by
  unfold vsLine
  have hk := (isVertex_of hs).1 hv
  rw [if_neg (by rintro ⟨h1, h2⟩; rcases hk with h | h <;> contradiction), vsVrtx, ← hs]
  constructor
  · intro h
    obtain ⟨o, h1, h⟩ := bind_eq_ok.1 h
    obtain ⟨p, h2, h⟩ := bind_eq_ok.1 h
    obtain ⟨as, h3, h⟩ := bind_eq_ok.1 h
    refine ⟨o, p, as, ?_, point_iff.1 h2, h3, (Res.ok.inj h).symm⟩
    cases hp : vs.points with
    | nil =>
      rw [hp] at h1
      rw [if_pos rfl]
      exact number_iff.1 h1
    | cons q qs =>
      rw [hp] at h1
      rw [if_neg (by simp)]
      exact (Res.ok.inj h1).symm
  · rintro ⟨o, p, as, h1, h2, h3, rfl⟩
    have : (if vs.points.isEmpty = true then (do readIndex (← Res.index (split l) 1)) else pure vs.offset : Res Nat) = .ok o := by
      cases hp : vs.points with
      | nil => rw [hp, if_pos rfl] at h1; exact number_iff.2 h1
      | cons q qs => rw [hp, if_neg (by simp)] at h1; rw [h1]; rfl
    rw [this, ok_bind, point_iff.2 h2, ok_bind, h3]
    rfl

theorem vsLine_other {vs : VSet D} {l k : Str} {args : List Str} (hs : split l = k :: args) (hv : isVertex l = false) :
    vsLine vs k (k :: args) = .ok vs := by
  unfold vsLine
  rw [if_pos]
  by_contra h
  rw [not_and_or, not_not, not_not] at h
  rw [(isVertex_of hs).2 h] at hv
  cases hv

theorem loop_shape (f : File) (vs : VSet D) (hf : Filled vs.props vs.attrs vs.points.length) {vs' : VSet D} {rest : File}
    (h : readVSetLoop vs f = .ok (vs', rest)) : ∃ o ps as, vs' = { vs with offset := o, points := vs.points ++ ps, attrs := as } ∧
      Filled vs.props as (vs.points ++ ps).length := by
  induction f generalizing vs with
  | nil => cases h
  | cons l ls ih =>
    rw [readVSetLoop] at h
    split at h
    · cases h
    · rename_i k args hs
      split at h
      · cases h
        exact ⟨vs'.offset, [], vs'.attrs, by simp, by simpa using hf⟩
      · obtain ⟨vs1, h1, h2⟩ := bind_eq_ok.1 h
        cases hv : isVertex l with
        | true =>
          obtain ⟨o', p, as', -, -, h5, rfl⟩ := (vsLine_vertex hs hv).1 h1
          have hF1 : Filled vs.props as' (vs.points ++ [p]).length := by simpa using filled_step hf h5
          obtain ⟨o, ps, as, rfl, hF⟩ := ih _ hF1 h2
          exact ⟨o, p :: ps, as, by simp, by simpa using hF⟩
        | false =>
          rw [vsLine_other hs hv] at h1
          cases h1
          exact ih _ hf h2

theorem loop_iff (f : File) (vs : VSet D) (hf : Filled vs.props vs.attrs vs.points.length) (ps : List (Pt D)) (rest : File) :
    (∃ o as, readVSetLoop vs f = .ok ({ vs with offset := o, points := vs.points ++ ps, attrs := as }, rest) ∧
      Filled vs.props as (vs.points ++ ps).length) ↔ ∃ body, Until f body rest ∧ Points vs.crs.zPos vs.props.esizes vs.points body ps := by
  induction f generalizing vs ps with
  | nil =>
    constructor
    · rintro ⟨o, as, h, _⟩; cases h
    · rintro ⟨body, ⟨_, e, he, _⟩, _⟩; simp at he
  | cons l ls ih =>
    rw [readVSetLoop]
    split
    · rename_i hs
      constructor
      · rintro ⟨o, as, h, _⟩; cases h
      · rintro ⟨body, h, _⟩
        have he : isEnd l = false := by simp [isEnd, key, hs]
        obtain ⟨b, rfl⟩ := until_shape he h
        exact absurd hs (h.1 l (by simp)).1
    · rename_i k args hs
      by_cases hk : k = cs!"END"
      · rw [if_pos hk]
        have he := (isEnd_of hs).2 hk
        simp only [until_end he]
        constructor
        · rintro ⟨o, as, h, _⟩
          obtain ⟨h1, rfl⟩ := Prod.mk.inj (Res.ok.inj h)
          have e1 := congrArg VSet.points h1
          have e1 : ps = [] := by simpa using e1.symm
          exact ⟨[], ⟨rfl, rfl⟩, by rw [e1]; exact .nil, by simp⟩
        · rintro ⟨_, ⟨rfl, rfl⟩, hl, _⟩
          cases hl
          exact ⟨vs.offset, vs.attrs, by simp, by simpa using hf⟩
      · rw [if_neg hk]
        have he : isEnd l = false := Bool.eq_false_iff.2 fun h => hk ((isEnd_of hs).1 h)
        have hb : split l ≠ [] := by rw [hs]; simp
        cases hv : isVertex l with
        | true =>
          have hfl : ∀ b : File, (l :: b).filter isVertex = l :: b.filter isVertex := fun b => by rw [List.filter_cons, hv]; rfl
          constructor
          · rintro ⟨o, as, h, hF⟩
            obtain ⟨vs1, h1, h2⟩ := bind_eq_ok.1 h
            obtain ⟨o', p, as', h3, h4, h5, rfl⟩ := (vsLine_vertex hs hv).1 h1
            have hF1 : Filled vs.props as' (vs.points ++ [p]).length := by simpa using filled_step hf h5
            obtain ⟨o2, ps2, as2, e, hF2⟩ := loop_shape _ _ hF1 h2
            have e1 := congrArg VSet.points e
            have e3 := congrArg VSet.attrs e
            simp only [List.append_assoc, List.append_cancel_left_eq, List.singleton_append] at e1 e3
            subst e1 e3
            obtain ⟨b, h6, h7, -⟩ := (ih _ hF1 ps2).1 ⟨o, as, by simpa using h2, hF2⟩
            refine ⟨l :: b, (until_cons hb he).2 h6, ?_, ?_⟩
            · rw [hfl]
              exact .cons ⟨h4, (properties_iff _ vs.attrs (hf.sizes.trans hf.cols.symm) _).1 ⟨as', h5⟩⟩ h7
            · intro hp x hx
              rw [hfl] at hx
              simp only [List.head?_cons, Option.mem_def, Option.some.injEq] at hx
              subst hx
              rw [if_pos hp] at h3
              exact ⟨o', h3⟩
          · rintro ⟨body, h1, h2, h3⟩
            obtain ⟨b, rfl⟩ := until_shape he h1
            rw [hfl] at h2 h3
            cases h2 with
            | @cons _ p _ ps' h4 h5 =>
              obtain ⟨as, ha⟩ := (properties_iff _ vs.attrs (hf.sizes.trans hf.cols.symm) _).2 h4.2
              have hF1 : Filled vs.props as (vs.points ++ [p]).length := by simpa using filled_step hf ha
              have hnum : ∃ o, if vs.points = [] then Number l o else o = vs.offset := by
                by_cases hp : vs.points = []
                · simp only [if_pos hp]; exact h3 hp l (by simp)
                · simp only [if_neg hp]; exact ⟨_, rfl⟩
              obtain ⟨o, ho⟩ := hnum
              obtain ⟨o', as', h6, h7⟩ := (ih { vs with offset := o, points := vs.points ++ [p], attrs := as } hF1 ps').2
                ⟨b, (until_cons hb he).1 h1, h5, by simp⟩
              refine ⟨o', as', ?_, by simpa using h7⟩
              rw [(vsLine_vertex hs hv).2 ⟨o, p, as, ho, h4.1, ha, rfl⟩, ok_bind, h6]
              simp
        | false =>
          rw [vsLine_other hs hv, ok_bind, ih vs hf ps]
          have hfl : ∀ b : File, (l :: b).filter isVertex = b.filter isVertex := fun b => by rw [List.filter_cons, hv]; rfl
          constructor
          · rintro ⟨b, h1, h2⟩
            exact ⟨l :: b, (until_cons hb he).2 h1, by unfold Points; rw [hfl]; exact h2⟩
          · rintro ⟨body, h1, h2⟩
            obtain ⟨b, rfl⟩ := until_shape he h1
            unfold Points at h2
            rw [hfl] at h2
            exact ⟨b, (until_cons hb he).1 h1, h2⟩

/-! ## The objects of a file -/

/-- `l` is the first line that starts with `VRTX` or `PVRTX`. -/
def FirstVertex (f : File) (l : Str) (rest : File) : Prop :=
  ∃ pre, f = pre ++ l :: rest ∧ (startsWith l cs!"VRTX" = true ∨ startsWith l cs!"PVRTX" = true) ∧
    ∀ x ∈ pre, startsWith x cs!"VRTX" = false ∧ startsWith x cs!"PVRTX" = false

theorem firstVertex_iff {f : File} {l : Str} {rest : File} : gotoKeywords [cs!"VRTX", cs!"PVRTX"] f = .ok (l, rest) ↔ FirstVertex f l rest := by
  have hany : ∀ a : Str, ([cs!"VRTX", cs!"PVRTX"].any (startsWith a)) = (startsWith a cs!"VRTX" || startsWith a cs!"PVRTX") := fun a => by simp
  induction f with
  | nil => simp [gotoKeywords, FirstVertex]
  | cons a as ih =>
    rw [gotoKeywords, hany]
    by_cases h : (startsWith a cs!"VRTX" || startsWith a cs!"PVRTX") = true
    · rw [if_pos h]
      constructor
      · intro e
        obtain ⟨rfl, rfl⟩ := Prod.mk.inj (Res.ok.inj e)
        exact ⟨[], rfl, by simpa using h, by simp⟩
      · rintro ⟨pre, e, hl, hp⟩
        cases pre with
        | nil => obtain ⟨rfl, rfl⟩ := List.cons.inj e; rfl
        | cons p ps =>
          have := hp p (by simp)
          rw [← (List.cons.inj e).1] at this
          rw [this.1, this.2] at h
          cases h
    · rw [if_neg h]
      refine Iff.trans ih ?_
      constructor
      · rintro ⟨pre, rfl, hl, hp⟩
        refine ⟨a :: pre, rfl, hl, fun x hx => ?_⟩
        rcases List.mem_cons.1 hx with rfl | hx
        · simpa using h
        · exact hp x hx
      · rintro ⟨pre, e, hl, hp⟩
        cases pre with
        | nil =>
          rw [← (List.cons.inj e).1] at hl
          rcases hl with hl | hl <;> simp [hl] at h
        | cons p ps => exact ⟨ps, (List.cons.inj e).2, hl, fun x hx => hp x (by simp [hx])⟩

/-- An object: its name and its points. -/
structure Object (D : Type) where
  name : Option Str
  points : List (Pt D)

/-- The objects of a file: each one starts at the first line `GOCAD VSet` after the previous one, its header, its coordinate system and its properties follow, and
its lines are those from the first one that starts as a vertex, up to a line `END`. -/
inductive Objects : File → List (Object D) → Prop
  | none {f : File} (h : ∀ l ∈ f, startsWith l cs!"GOCAD VSet" = false) : Objects f []
  | cons {f title f1 name f2 crs f3 f4 l f5 body ps rest os} {props : PropHeader D} (h1 : First cs!"GOCAD VSet" f title f1)
      (h2 : readHeader f1 = .ok (name, f2)) (h3 : readCrs f2 = .ok (crs, f3)) (h4 : readPropHeader [] f3 = .ok (props, f4)) (h5 : FirstVertex f4 l f5)
      (h6 : Until (l :: f5) body rest) (h7 : Points crs.zPos props.esizes [] body ps) (h8 : Objects rest os) : Objects f (⟨name, ps⟩ :: os)

/-- The last name. -/
def lastName : Option Str → List (Object D) → Option Str
  | n, [] => n
  | n, o :: os => lastName (o.name <|> n) os

theorem object_iff {f : File} {vs : VSet D} {rest : File} (h : readVSet f = .ok (some (vs, rest))) :
    Filled vs.props vs.attrs vs.points.length ∧ ∃ title f1 f2 f3 f4 l f5 body, First cs!"GOCAD VSet" f title f1 ∧ readHeader f1 = .ok (vs.name, f2) ∧
      readCrs f2 = .ok (vs.crs, f3) ∧ readPropHeader [] f3 = .ok (vs.props, f4) ∧ FirstVertex f4 l f5 ∧ Until (l :: f5) body rest ∧
      Points vs.crs.zPos vs.props.esizes [] body vs.points := by
  unfold readVSet at h
  split at h
  · cases h
  · rename_i title f1 hg
    obtain ⟨⟨name, f2⟩, h1, h⟩ := bind_eq_ok.1 h
    obtain ⟨⟨crs, f3⟩, h2, h⟩ := bind_eq_ok.1 h
    obtain ⟨⟨props, f4⟩, h2', h⟩ := bind_eq_ok.1 h
    obtain ⟨⟨vs', rest'⟩, h3, h⟩ := bind_eq_ok.1 h
    cases h
    unfold readVSetVertices at h3
    obtain ⟨⟨l, f5⟩, h4, h3⟩ := bind_eq_ok.1 h3
    dsimp only at h2 h2' h3 h4
    obtain ⟨o, ps, as, rfl, hF⟩ := loop_shape _ _ (header_lengths h2') h3
    obtain ⟨body, h5, h6⟩ := (loop_iff _ _ (header_lengths h2') ps rest).1 ⟨o, as, h3, hF⟩
    exact ⟨hF, title, f1, f2, f3, f4, l, f5, body, first_iff.1 hg, h1, h2, h2', firstVertex_iff.1 h4, h5, h6⟩

theorem object_read {f : File} {title : Str} {f1 : File} {name : Option Str} {f2 : File} {crs : Crs} {f3 : File} {props : PropHeader D} {f4 : File} {l : Str}
    {f5 body rest : File} {ps : List (Pt D)} (h1 : First cs!"GOCAD VSet" f title f1) (h2 : readHeader f1 = .ok (name, f2)) (h3 : readCrs f2 = .ok (crs, f3))
    (h4 : readPropHeader [] f3 = .ok (props, f4)) (h5 : FirstVertex f4 l f5) (h6 : Until (l :: f5) body rest)
    (h7 : Points crs.zPos props.esizes [] body ps) : ∃ o as, readVSet f = .ok (some (⟨o, name, crs, props, ps, as⟩, rest)) := by
  obtain ⟨o, as, h, -⟩ := (loop_iff (l :: f5) { name, crs, props, attrs := props.names.map (fun _ => []) } (header_lengths h4) ps rest).2 ⟨body, h6, h7⟩
  refine ⟨o, as, ?_⟩
  unfold readVSet
  rw [first_iff.2 h1]
  dsimp only
  rw [h2, ok_bind]
  dsimp only
  rw [h3, ok_bind]
  dsimp only
  rw [h4, ok_bind]
  dsimp only
  rw [readVSetVertices, firstVertex_iff.2 h5, ok_bind]
  dsimp only
  rw [h]
  rfl

theorem none_iff {f : File} : (readVSet f : Res (Option (VSet D × File))) = .ok none ↔ ∀ l ∈ f, startsWith l cs!"GOCAD VSet" = false := by
  unfold readVSet
  cases hg : gotoKeyword? cs!"GOCAD VSet" f with
  | none =>
    refine ⟨fun _ => ?_, fun _ => rfl⟩
    rcases goto_cases cs!"GOCAD VSet" f with ⟨l, r, h, _⟩ | ⟨_, h⟩
    · rw [gotoKeyword, hg] at h; cases h
    · exact h
  | some x =>
    constructor
    · intro h
      obtain ⟨_, _, h⟩ := bind_eq_ok.1 h
      obtain ⟨_, _, h⟩ := bind_eq_ok.1 h
      obtain ⟨_, _, h⟩ := bind_eq_ok.1 h
      obtain ⟨_, _, h⟩ := bind_eq_ok.1 h
      cases h
    · intro h
      obtain ⟨pre, rfl, hl, _⟩ := first_iff.1 hg
      rw [h x.1 (by simp)] at hl
      cases hl

theorem build_ok {m : Loaded Empty D} {vs : VSet D} (hm : StoreOk m.points.length m.store) (hf : Filled vs.props vs.attrs vs.points.length) :
    ∃ st, buildPointSet m vs = .ok { name := vs.name <|> m.name, points := m.points ++ vs.points, store := st } ∧
      StoreOk (m.points ++ vs.points).length st := by
  obtain ⟨st, h1, h2⟩ := createAttributes_total (nb := (m.points ++ vs.points).length) (n := vs.points.length) (by simp) vs.props.names vs.props.esizes
    vs.props.noData vs.attrs (growStore (m.points ++ vs.points).length m.store) (growStore_ok (by simp) hm) hf.sizes hf.noData hf.cols hf.lengths
  refine ⟨st, ?_, h2⟩
  unfold buildPointSet
  simp only [h1, ok_bind, pure_eq]

theorem loadLoop_iff (n : Nat) (m : Loaded Empty D) (f : File) (hn : f.length < n) (hm : StoreOk m.points.length m.store) (hc : m.cells = [])
    (name : Option Str) (ps : List (Pt D)) :
    (∃ st, loadVSLoop n m f = .ok { name := name, points := ps, store := st }) ↔
      ∃ os, Objects f os ∧ name = lastName m.name os ∧ ps = m.points ++ os.flatMap Object.points := by
  induction n generalizing m f with
  | zero => omega
  | succ n ih =>
    rw [loadVSLoop]
    have hf := (readVSet_fwd (D := D) f).2
    constructor
    · rintro ⟨st, h⟩
      obtain ⟨r, h1, h⟩ := bind_eq_ok.1 h
      cases r with
      | none =>
        cases h
        exact ⟨[], .none (none_iff.1 h1), rfl, by simp⟩
      | some x =>
        obtain ⟨vs, rest⟩ := x
        obtain ⟨hF, title, f1, f2, f3, f4, l, f5, body, g1, g2, g3, g4, g5, g6, g7⟩ := object_iff h1
        obtain ⟨st', e, hs⟩ := build_ok hm hF
        dsimp only at h
        rw [e, ok_bind] at h
        obtain ⟨os, k1, k2, k3⟩ := (ih _ rest (by have := hf _ _ h1; omega) hs rfl).1 ⟨st, h⟩
        exact ⟨⟨vs.name, vs.points⟩ :: os, .cons g1 g2 g3 g4 g5 g6 g7 k1, k2, by rw [k3]; simp⟩
    · rintro ⟨os, h1, rfl, rfl⟩
      cases h1 with
      | none h =>
        refine ⟨m.store, ?_⟩
        rw [none_iff.2 h]
        simp [lastName, ← hc]
      | @cons _ _ _ name1 _ _ _ _ _ _ _ ps1 rest1 os1 _ g1 g2 g3 g4 g5 g6 g7 g8 =>
        obtain ⟨o, as, ho⟩ := object_read g1 g2 g3 g4 g5 g6 g7
        have hl := hf _ _ ho
        obtain ⟨hF, -⟩ := object_iff ho
        obtain ⟨st', e, hs⟩ := build_ok hm hF
        obtain ⟨st, h⟩ := (ih { name := name1 <|> m.name, points := m.points ++ ps1, store := st' } rest1 (by omega) hs rfl).2 ⟨os1, g8, rfl, by simp⟩
        refine ⟨st, ?_⟩
        rw [ho, ok_bind]
        dsimp only
        rw [e, ok_bind]
        refine h.trans ?_
        simp [lastName]

/-- **C157**: the point set files that load, and the points they give. -/
theorem points_load_iff (f : File) (name : Option Str) (ps : List (Pt D)) : (∃ st, loadVS f = .ok { name := name, points := ps, store := st }) ↔
    ∃ os, Objects f os ∧ name = lastName none os ∧ ps = os.flatMap Object.points := by
  rw [loadVS, loadLoop_iff _ _ _ (by omega) (by intro p hp; cases hp) rfl]
  simp

/-- The objects of a file are determined by its text. -/
theorem objects_unique {f : File} {os os' : List (Object D)} (h : Objects f os) (h' : Objects f os') : os = os' := by
  induction h generalizing os' with
  | none h =>
    cases h' with
    | none _ => rfl
    | cons g1 _ _ _ _ _ _ _ =>
      obtain ⟨pre, rfl, hl, _⟩ := g1
      rw [h _ (by simp)] at hl
      cases hl
  | cons g1 g2 g3 g4 g5 g6 g7 g8 ih =>
    cases h' with
    | none h =>
      obtain ⟨pre, rfl, hl, _⟩ := g1
      rw [h _ (by simp)] at hl
      cases hl
    | cons k1 k2 k3 k4 k5 k6 k7 k8 =>
      obtain ⟨o, as, ho⟩ := object_read g1 g2 g3 g4 g5 g6 g7
      obtain ⟨o', as', ho'⟩ := object_read k1 k2 k3 k4 k5 k6 k7
      rw [ho] at ho'
      cases ho'
      rw [ih k8]

/-- **C157, the other files.**  When each line has the words of its keyword and there are no properties, a file that does not load is refused. -/
theorem points_outcomes {f : File} (h : GocadUb.Plain f) : (∃ m : Loaded Empty D, loadVS f = .ok m) ∨ (loadVS f : Res (Loaded Empty D)) = .throw := by
  cases hr : (loadVS f : Res (Loaded Empty D)) with
  | ok m => exact Or.inl ⟨m, rfl⟩
  | throw => exact Or.inr rfl
  | diverge => exact absurd hr (Props.VSet.loadVS_terminates f)
  | ub => exact absurd hr (GocadUb.no_ub_vs_partial h)

/-- Two objects, the second with a property; what is between the vertices is ignored. -/
def twice : File := [cs!"GOCAD VSet 1", cs!"HEADER {", cs!"name: a", cs!"}", cs!"VRTX 1 0 0 0", cs!"REGION x", cs!"VRTX any 1 0 0", cs!"END",
  cs!"GOCAD VSet 1", cs!"HEADER {", cs!"}", cs!"PROPERTIES p", cs!"PROP_LEGAL_RANGES **none** **none**", cs!"NO_DATA_VALUES -9", cs!"PROPERTY_CLASSES p",
  cs!"PROPERTY_KINDS unknown", cs!"PROPERTY_SUBCLASSES QUANTITY Float", cs!"ESIZES 1", cs!"UNITS m", cs!"PVRTX 1 7 7 7 3", cs!"END"]

/-- It loads by `points_load_iff`. -/
example : ∃ os : List (Object Int), Objects twice os ∧ some cs!"a" = lastName none os ∧ [⟨0, 0, 0⟩, ⟨1, 0, 0⟩, ⟨7, 7, 7⟩] = os.flatMap Object.points := by
  have hl : (loadVS twice : Res (Loaded Empty Int)) = .ok ⟨some cs!"a", [⟨0, 0, 0⟩, ⟨1, 0, 0⟩, ⟨7, 7, 7⟩], [],
      [(cs!"p", ⟨1, -9, [[3], [-9], [-9]]⟩)]⟩ := by decide +kernel
  exact (points_load_iff _ _ _).1 ⟨_, hl⟩

/-- The file of `GocadUb.messy` is refused: the second vertex has no coordinates. -/
example : GocadUb.Plain GocadUb.messy ∧ ¬ ∃ m : Loaded Empty Int, loadVS GocadUb.messy = .ok m :=
  ⟨GocadUb.plain_messy, by
    have : (loadVS GocadUb.messy : Res (Loaded Empty Int)) = .throw := by decide +kernel
    rw [this]
    rintro ⟨m, hm⟩
    cases hm⟩

end Verif.Props.PointSetOutcomes
