import Verif.Model.BrepFem

/-!
# FEM exports of models (C51)
-/

namespace Verif.Props.BrepFem

open Verif Verif.BrepFem Res

variable {D : Type}

/-! ## Writing in an attribute -/

/-- Values set one after the other. -/
def applyTo {α : Type} (l : List α) (ws : List (Nat × α)) : List α := ws.foldl (fun l w => l.set w.1 w.2) l

theorem applyTo_append {α : Type} (l : List α) (a b : List (Nat × α)) : applyTo l (a ++ b) = applyTo (applyTo l a) b := by
  unfold applyTo; rw [List.foldl_append]

@[simp] theorem length_applyTo {α : Type} (ws : List (Nat × α)) : ∀ l : List α, (applyTo l ws).length = l.length := by
  unfold applyTo
  induction ws with
  | nil => intro l; rfl
  | cons w ws ih => intro l; rw [List.foldl_cons, ih]; simp

/-- An element has a value that was written for it, or its first value when there is none. -/
theorem applyTo_get {α : Type} : ∀ (ws : List (Nat × α)) (l : List α) (f : Nat), f < l.length →
    (∃ v, (applyTo l ws)[f]? = some v ∧ (f, v) ∈ ws) ∨ ((∀ v, (f, v) ∉ ws) ∧ (applyTo l ws)[f]? = l[f]?) := by
  intro ws
  induction ws with
  | nil => intro l f _; exact Or.inr ⟨by simp, rfl⟩
  | cons w ws ih =>
    intro l f hf
    obtain ⟨i, v⟩ := w
    have e : applyTo l ((i, v) :: ws) = applyTo (l.set i v) ws := rfl
    rw [e]
    rcases ih (l.set i v) f (by simpa using hf) with ⟨x, h1, h2⟩ | ⟨h1, h2⟩
    · exact Or.inl ⟨x, h1, by simp [h2]⟩
    · by_cases hi : i = f
      · subst hi
        refine Or.inl ⟨v, ?_, by simp⟩
        rw [h2, List.getElem?_set_self hf]
      · refine Or.inr ⟨?_, ?_⟩
        · intro x hx
          rcases List.mem_cons.1 hx with hx | hx
          · cases hx; exact hi rfl
          · exact h1 x hx
        · rw [h2, List.getElem?_set_ne hi]

theorem setAt_ok {α : Type} {l : List α} {i : Nat} (a : α) (h : i < l.length) : setAt l i a = .ok (l.set i a) := by
  unfold setAt; rw [if_pos h]

theorem foldM'_setAt {α : Type} : ∀ (ws : List (Nat × α)) (l : List α), (∀ w ∈ ws, w.1 < l.length) →
    foldM' (fun l (w : Nat × α) => setAt l w.1 w.2) l ws = .ok (applyTo l ws) := by
  intro ws
  induction ws with
  | nil => intro l _; rfl
  | cons w ws ih =>
    intro l h
    rw [foldM'_cons, setAt_ok _ (h w (by simp)), ok_bind]
    exact ih _ (fun x hx => by simpa using h x (by simp [hx]))

/-! ## Surfaces and lines -/

/-- The attribute has a value for each element, and the elements are in the solid. -/
def Fits (n : Nat) (attr : Str) (c : Comp D) : Prop :=
  ∀ a, find c.attrs attr = some a → a.values.length = c.out.length ∧ ∀ fs ∈ c.out, ∀ f ∈ fs, f < n

/-- The values that a component has for elements of the solid. -/
def writes (attr : Str) (c : Comp D) : List (Nat × D) :=
  match find c.attrs attr with
  | none => []
  | some a => (c.out.zip a.values).flatMap fun e => e.1.map fun f => (f, e.2)

/-- The names that a component gives to elements of the solid. -/
def nameWrites (attr : Str) (c : Comp D) : List (Nat × Str) :=
  match find c.attrs attr, c.name with
  | some _, some k => c.out.flatMap fun fs => fs.map fun f => (f, k)
  | _, _ => []

/-- The names for some elements. -/
def named (name : Option Str) (fs : List Nat) : List (Nat × Str) :=
  match name with
  | some k => fs.map fun f => (f, k)
  | none => []

theorem paintOnes {n : Nat} (name : Option Str) (v : D) : ∀ (fs : List Nat) (s : State D), (∀ f ∈ fs, f < n) → s.1.length = n → s.2.length = n →
    foldM' (paintOne name v) s fs = .ok (applyTo s.1 (fs.map fun f => (f, v)), applyTo s.2 (named name fs)) := by
  intro fs
  induction fs with
  | nil => intro s _ _ _; cases name <;> rfl
  | cons f fs ih =>
    intro s hf h1 h2
    have hfn := hf f (by simp)
    rw [foldM'_cons]
    cases name with
    | none =>
      have e : paintOne none v s f = .ok (s.1.set f v, s.2) := by
        unfold paintOne; rw [setAt_ok _ (by omega)]; rfl
      rw [e, ok_bind, ih _ (fun x hx => hf x (by simp [hx])) (by simpa using h1) (by simpa using h2)]
      rfl
    | some k =>
      have e : paintOne (some k) v s f = .ok (s.1.set f v, s.2.set f k) := by
        unfold paintOne; rw [setAt_ok _ (by omega), ok_bind]
        simp only
        rw [setAt_ok _ (by omega)]; rfl
      rw [e, ok_bind, ih _ (fun x hx => hf x (by simp [hx])) (by simpa using h1) (by simpa using h2)]
      rfl

theorem paintElements {n : Nat} (name : Option Str) (values : List D) : ∀ (out : List (List Nat)) (k : Nat) (s : State D), out.length + k ≤ values.length →
    (∀ fs ∈ out, ∀ f ∈ fs, f < n) → s.1.length = n → s.2.length = n →
    foldM' (fun (s : State D) (e : List Nat × Nat) => do
      let v ← Res.index values e.2
      Res.foldM' (paintOne name v) s e.1) s (out.zipIdx k) =
    .ok (applyTo s.1 ((out.zip (values.drop k)).flatMap fun e => e.1.map fun f => (f, e.2)), applyTo s.2 (out.flatMap (named name))) := by
  intro out
  induction out with
  | nil => intro k s _ _ _ _; rfl
  | cons fs out ih =>
    intro k s hk hf h1 h2
    rw [List.length_cons] at hk
    have hd : values.drop k = values[k]'(by omega) :: values.drop (k + 1) := by
      rw [List.drop_eq_getElem_cons (by omega)]
    rw [List.zipIdx_cons, foldM'_cons]
    simp only
    rw [index_of_lt (by omega), ok_bind, paintOnes name _ fs s (hf fs (by simp)) h1 h2, ok_bind,
      ih (k + 1) _ (by omega) (fun x hx => hf x (by simp [hx])) (by simpa using h1) (by simpa using h2), hd]
    simp only [List.zip_cons_cons, List.flatMap_cons, applyTo_append]

theorem paintComp_ok {n : Nat} {attr : Str} {c : Comp D} (h : Fits n attr c) (s : State D) (h1 : s.1.length = n) (h2 : s.2.length = n) :
    paintComp attr s c = .ok (applyTo s.1 (writes attr c), applyTo s.2 (nameWrites attr c)) := by
  unfold paintComp writes nameWrites
  cases ha : find c.attrs attr with
  | none => rfl
  | some a =>
    obtain ⟨hl, hf⟩ := h a ha
    simp only
    rw [paintElements c.name a.values c.out 0 s (by omega) hf h1 h2]
    cases hk : c.name with
    | none =>
      have : c.out.flatMap (named (none : Option Str)) = [] := by simp [named]
      rw [this]; rfl
    | some k => rfl

theorem paintComps_ok {n : Nat} {attr : Str} : ∀ (comps : List (Comp D)) (s : State D), (∀ c ∈ comps, Fits n attr c) → s.1.length = n → s.2.length = n →
    foldM' (paintComp attr) s comps = .ok (applyTo s.1 (comps.flatMap (writes attr)), applyTo s.2 (comps.flatMap (nameWrites attr))) := by
  intro comps
  induction comps with
  | nil => intro s _ _ _; rfl
  | cons c comps ih =>
    intro s h h1 h2
    rw [foldM'_cons, paintComp_ok (h c (by simp)) s h1 h2, ok_bind,
      ih _ (fun x hx => h x (by simp [hx])) (by simpa using h1) (by simpa using h2)]
    simp only [List.flatMap_cons, applyTo_append]

/-- The names before an attribute is painted. -/
def startNames (n : Nat) (p : Painted D) : List Str := if p.names = [] then List.replicate n cs!"No_name" else p.names

theorem paintAttribute_ok {n : Nat} (dflt : D) {comps : List (Comp D)} {attr : Str} (h : ∀ c ∈ comps, Fits n attr c) (p : Painted D)
    (hp : p.names = [] ∨ p.names.length = n) : paintAttribute n dflt comps p attr =
      .ok ⟨p.attrs ++ [⟨attr, applyTo (List.replicate n dflt) (comps.flatMap (writes attr))⟩],
        applyTo (startNames n p) (comps.flatMap (nameWrites attr))⟩ := by
  have hl : (startNames n p).length = n := by
    unfold startNames
    split
    · simp
    · rename_i hne; rcases hp with hp | hp
      · exact absurd hp hne
      · exact hp
  unfold paintAttribute
  have := paintComps_ok comps (List.replicate n dflt, startNames n p) h (by simp) hl
  unfold startNames at this ⊢
  rw [this]; rfl

/-- The component has this value for this element of the solid. -/
def Gives (comps : List (Comp D)) (attr : Str) (f : Nat) (v : D) : Prop :=
  ∃ c ∈ comps, ∃ a, find c.attrs attr = some a ∧ ∃ (e : Nat) (fs : List Nat), c.out[e]? = some fs ∧ f ∈ fs ∧ a.values[e]? = some v

/-- An attribute of the solid says what the components say, and the default value elsewhere. -/
def Tells (n : Nat) (dflt : D) (comps : List (Comp D)) (attr : Str) (values : List D) : Prop :=
  values.length = n ∧ ∀ f < n, (∃ v, values[f]? = some v ∧ Gives comps attr f v) ∨ ((∀ v, ¬ Gives comps attr f v) ∧ values[f]? = some dflt)

theorem mem_writes {attr : Str} {comps : List (Comp D)} {f : Nat} {v : D} : (f, v) ∈ comps.flatMap (writes attr) ↔ Gives comps attr f v := by
  unfold Gives
  rw [List.mem_flatMap]
  constructor
  · rintro ⟨c, hc, hw⟩
    refine ⟨c, hc, ?_⟩
    unfold writes at hw
    split at hw
    · simp at hw
    · rename_i a ha
      refine ⟨a, ha, ?_⟩
      obtain ⟨x, hx, hfx⟩ := List.mem_flatMap.1 hw
      obtain ⟨g, hg, eg⟩ := List.mem_map.1 hfx
      cases eg
      obtain ⟨e, he⟩ := List.mem_iff_getElem?.1 hx
      rw [List.getElem?_zip_eq_some] at he
      exact ⟨e, x.1, he.1, hg, he.2⟩
  · rintro ⟨c, hc, a, ha, e, fs, h1, h2, h3⟩
    refine ⟨c, hc, ?_⟩
    unfold writes
    rw [ha]
    simp only
    refine List.mem_flatMap.2 ⟨(fs, v), List.mem_iff_getElem?.2 ⟨e, ?_⟩, List.mem_map.2 ⟨f, h2, rfl⟩⟩
    rw [List.getElem?_zip_eq_some]
    exact ⟨h1, h3⟩

theorem tells (n : Nat) (dflt : D) (comps : List (Comp D)) (attr : Str) :
    Tells n dflt comps attr (applyTo (List.replicate n dflt) (comps.flatMap (writes attr))) := by
  refine ⟨by simp, ?_⟩
  intro f hf
  rcases applyTo_get (comps.flatMap (writes attr)) (List.replicate n dflt) f (by simpa using hf) with ⟨v, h1, h2⟩ | ⟨h1, h2⟩
  · exact Or.inl ⟨v, h1, mem_writes.1 h2⟩
  · refine Or.inr ⟨fun v hv => h1 v (mem_writes.2 hv), ?_⟩
    rw [h2, List.getElem?_replicate, if_pos hf]

/-- An element that only one value is given for has this value. -/
theorem Tells.value {n : Nat} {dflt : D} {comps : List (Comp D)} {attr : Str} {values : List D} (h : Tells n dflt comps attr values) {f : Nat} (hf : f < n)
    {v : D} (hv : Gives comps attr f v) (hu : ∀ w, Gives comps attr f w → w = v) : values[f]? = some v := by
  rcases h.2 f hf with ⟨w, h1, h2⟩ | ⟨h1, _⟩
  · rw [h1, hu w h2]
  · exact absurd hv (h1 v)

/-- The first component has the attribute. -/
def FirstHas (own : Str) (comps : List (Comp D)) : Prop := ∃ c rest a, comps = c :: rest ∧ find c.attrs own = some a

theorem paintInfos_first {n : Nat} (dflt : D) {own cond : Str} {comps : List (Comp D)} (ho : ∀ c ∈ comps, Fits n own c) (hc : ∀ c ∈ comps, Fits n cond c)
    (hf : FirstHas own comps) : paintInfos n dflt own cond comps =
      .ok ⟨[⟨own, applyTo (List.replicate n dflt) (comps.flatMap (writes own))⟩, ⟨cond, applyTo (List.replicate n dflt) (comps.flatMap (writes cond))⟩],
        applyTo (List.replicate n cs!"No_name") (comps.flatMap (nameWrites own) ++ comps.flatMap (nameWrites cond))⟩ := by
  have key := paintAttribute_ok dflt ho ({} : Painted D) (Or.inl rfl)
  have hs : startNames n ({} : Painted D) = List.replicate n cs!"No_name" := rfl
  rw [hs] at key
  obtain ⟨c, rest, a, e, ha⟩ := hf
  have hm : paintOwn n dflt own comps = paintAttribute n dflt comps {} own := by
    subst e; unfold paintOwn; simp [ha]
  unfold paintInfos
  rw [hm, key, ok_bind, paintAttribute_ok dflt hc _ (Or.inr (by simp)), applyTo_append]
  have : startNames n (⟨[⟨own, applyTo (List.replicate n dflt) (comps.flatMap (writes own))⟩],
      applyTo (List.replicate n cs!"No_name") (comps.flatMap (nameWrites own))⟩ : Painted D) =
        applyTo (List.replicate n cs!"No_name") (comps.flatMap (nameWrites own)) := by
    unfold startNames
    simp only
    split
    · rename_i h0
      have : n = 0 := by simpa using congrArg List.length h0
      subst this
      rw [h0]; rfl
    · rfl
  simp only [List.nil_append] at this ⊢
  rw [this]; rfl

theorem paintInfos_not_first {n : Nat} (dflt : D) {own cond : Str} {comps : List (Comp D)} (hc : ∀ c ∈ comps, Fits n cond c)
    (hf : ¬ FirstHas own comps) : paintInfos n dflt own cond comps =
      .ok ⟨[⟨cond, applyTo (List.replicate n dflt) (comps.flatMap (writes cond))⟩],
        applyTo (List.replicate n cs!"No_name") (comps.flatMap (nameWrites cond))⟩ := by
  have key := paintAttribute_ok dflt hc ({} : Painted D) (Or.inl rfl)
  unfold paintInfos paintOwn
  cases comps with
  | nil => exact key
  | cons c rest =>
    have hn : find c.attrs own = none := by
      cases h : find c.attrs own with
      | none => rfl
      | some a => exact absurd ⟨c, rest, a, rfl, h⟩ hf
    simp only [hn, Option.isSome_none, Bool.false_eq_true, if_false]
    exact key

/-- The conductivity of every surface (or line) is painted, whichever comes first. -/
theorem conductivity_painted {n : Nat} (dflt : D) {own cond : Str} (hne : own ≠ cond) {comps : List (Comp D)} (ho : ∀ c ∈ comps, Fits n own c)
    (hc : ∀ c ∈ comps, Fits n cond c) : ∃ p vs, paintInfos n dflt own cond comps = .ok p ∧ find p.attrs cond = some ⟨cond, vs⟩ ∧ Tells n dflt comps cond vs := by
  by_cases hf : FirstHas own comps
  · exact ⟨_, _, paintInfos_first dflt ho hc hf, by simp [find, hne], tells n dflt comps cond⟩
  · exact ⟨_, _, paintInfos_not_first dflt hc hf, by simp [find], tells n dflt comps cond⟩

/-- C51 when the first surface (or line) has the attribute. -/
theorem own_painted_partial {n : Nat} (dflt : D) {own cond : Str} {comps : List (Comp D)} (ho : ∀ c ∈ comps, Fits n own c)
    (hc : ∀ c ∈ comps, Fits n cond c) (hf : FirstHas own comps) :
    ∃ p vs, paintInfos n dflt own cond comps = .ok p ∧ find p.attrs own = some ⟨own, vs⟩ ∧ Tells n dflt comps own vs :=
  ⟨_, _, paintInfos_first dflt ho hc hf, by simp [find], tells n dflt comps own⟩

/-- C51 is false: when the first surface (or line) does not have the attribute, the solid does not, whatever the other ones have. -/
theorem own_not_painted {n : Nat} (dflt : D) {own cond : Str} (hne : own ≠ cond) {comps : List (Comp D)}
    (hc : ∀ c ∈ comps, Fits n cond c) (hf : ¬ FirstHas own comps) :
    ∃ p, paintInfos n dflt own cond comps = .ok p ∧ find p.attrs own = none :=
  ⟨_, paintInfos_not_first dflt hc hf, by simp [find, Ne.symm hne]⟩

/-- Witness: a surface without aperture, then one with an aperture of 5 on facet 1. -/
def second : List (Comp Int) := [⟨none, [], [[0]]⟩, ⟨some cs!"fault", [⟨cs!"aperture", [5]⟩], [[1]]⟩]

theorem second_not_painted : (match paintInfos 2 (-1) cs!"aperture" cs!"conductivity" second with
    | .ok p => decide ((find p.attrs cs!"aperture").isNone = true ∧ p.names = [cs!"No_name", cs!"No_name"])
    | _ => false) = true ∧ Gives second cs!"aperture" 1 5 :=
  ⟨by decide, _, List.mem_cons_of_mem _ (List.mem_singleton.2 rfl), ⟨cs!"aperture", [5]⟩, by decide, 0, [1], rfl, by simp, rfl⟩

example : paintInfos 2 (-1) cs!"aperture" cs!"conductivity" second.reverse =
    .ok ⟨[⟨cs!"aperture", [-1, 5]⟩, ⟨cs!"conductivity", [-1, -1]⟩], [cs!"No_name", cs!"fault"]⟩ := by decide

/-! ## Names of surfaces and lines -/

/-- A component with one of the attributes and this name has the element. -/
def NameGiven (comps : List (Comp D)) (attrs : List Str) (f : Nat) (k : Str) : Prop :=
  ∃ c ∈ comps, c.name = some k ∧ (∃ x ∈ attrs, (find c.attrs x).isSome = true) ∧ ∃ fs ∈ c.out, f ∈ fs

theorem mem_nameWrites {attr : Str} {comps : List (Comp D)} {f : Nat} {k : Str} :
    (f, k) ∈ comps.flatMap (nameWrites attr) ↔ NameGiven comps [attr] f k := by
  unfold NameGiven
  rw [List.mem_flatMap]
  constructor
  · rintro ⟨c, hc, hw⟩
    unfold nameWrites at hw
    split at hw
    · rename_i a k' ha hk
      obtain ⟨fs, hfs, hx⟩ := List.mem_flatMap.1 hw
      obtain ⟨g, hg, eg⟩ := List.mem_map.1 hx
      cases eg
      exact ⟨c, hc, hk, ⟨attr, by simp, by rw [ha]; rfl⟩, fs, hfs, hg⟩
    · simp at hw
  · rintro ⟨c, hc, hk, ⟨x, hx, ha⟩, fs, hfs, hf⟩
    rw [List.mem_singleton] at hx
    subst hx
    obtain ⟨a, ha⟩ := Option.isSome_iff_exists.1 ha
    refine ⟨c, hc, ?_⟩
    unfold nameWrites
    rw [ha, hk]
    simp only
    exact List.mem_flatMap.2 ⟨fs, hfs, List.mem_map.2 ⟨f, hf, rfl⟩⟩

/-- The attributes that are painted. -/
def PaintedAttrs (own cond : Str) (comps : List (Comp D)) (attrs : List Str) : Prop :=
  (FirstHas own comps ∧ attrs = [own, cond]) ∨ (¬ FirstHas own comps ∧ attrs = [cond])

/-- An element has the name of a component with a painted attribute, or `No_name` when no named component with a painted attribute has it. -/
theorem names_painted_partial {n : Nat} (dflt : D) {own cond : Str} {comps : List (Comp D)} (ho : ∀ c ∈ comps, Fits n own c)
    (hc : ∀ c ∈ comps, Fits n cond c) {attrs : List Str} (ha : PaintedAttrs own cond comps attrs) : ∃ p, paintInfos n dflt own cond comps = .ok p ∧ ∀ f < n,
      (∃ k, p.names[f]? = some k ∧ NameGiven comps attrs f k) ∨ ((∀ k, ¬ NameGiven comps attrs f k) ∧ p.names[f]? = some cs!"No_name") := by
  rcases ha with ⟨hf, rfl⟩ | ⟨hf, rfl⟩
  · refine ⟨_, paintInfos_first dflt ho hc hf, ?_⟩
    intro f hfn
    have split : ∀ k, (f, k) ∈ comps.flatMap (nameWrites own) ++ comps.flatMap (nameWrites cond) ↔ NameGiven comps [own, cond] f k := by
      intro k
      rw [List.mem_append, mem_nameWrites, mem_nameWrites]
      unfold NameGiven
      constructor
      · rintro (⟨c, h1, h2, ⟨x, hx, h3⟩, h4⟩ | ⟨c, h1, h2, ⟨x, hx, h3⟩, h4⟩)
        · exact ⟨c, h1, h2, ⟨x, by simp at hx; simp [hx], h3⟩, h4⟩
        · exact ⟨c, h1, h2, ⟨x, by simp at hx; simp [hx], h3⟩, h4⟩
      · rintro ⟨c, h1, h2, ⟨x, hx, h3⟩, h4⟩
        rcases List.mem_cons.1 hx with rfl | hx
        · exact Or.inl ⟨c, h1, h2, ⟨x, by simp, h3⟩, h4⟩
        · exact Or.inr ⟨c, h1, h2, ⟨x, hx, h3⟩, h4⟩
    rcases applyTo_get (comps.flatMap (nameWrites own) ++ comps.flatMap (nameWrites cond)) (List.replicate n cs!"No_name") f (by simpa using hfn) with
      ⟨v, h1, h2⟩ | ⟨h1, h2⟩
    · exact Or.inl ⟨v, h1, (split v).1 h2⟩
    · refine Or.inr ⟨fun v hv => h1 v ((split v).2 hv), ?_⟩
      refine h2.trans ?_
      rw [List.getElem?_replicate, if_pos hfn]
  · refine ⟨_, paintInfos_not_first dflt hc hf, ?_⟩
    intro f hfn
    rcases applyTo_get (comps.flatMap (nameWrites cond)) (List.replicate n cs!"No_name") f (by simpa using hfn) with ⟨v, h1, h2⟩ | ⟨h1, h2⟩
    · exact Or.inl ⟨v, h1, mem_nameWrites.1 h2⟩
    · refine Or.inr ⟨fun v hv => h1 v (mem_nameWrites.2 hv), ?_⟩
      refine h2.trans ?_
      rw [List.getElem?_replicate, if_pos hfn]

/-- The names of the surfaces (or lines) without painted attribute are lost: their own elements are `No_name`. -/
theorem name_lost {n : Nat} (dflt : D) {own cond : Str} {comps : List (Comp D)} (ho : ∀ c ∈ comps, Fits n own c)
    (hc : ∀ c ∈ comps, Fits n cond c) {f : Nat} (hf : f < n) (hn : ∀ c ∈ comps, (∃ fs ∈ c.out, f ∈ fs) → find c.attrs own = none ∧ find c.attrs cond = none) :
    ∃ p, paintInfos n dflt own cond comps = .ok p ∧ p.names[f]? = some cs!"No_name" := by
  have none_given : ∀ (attrs : List Str), (∀ x ∈ attrs, x = own ∨ x = cond) → ∀ k, ¬ NameGiven comps attrs f k := by
    rintro attrs hx k ⟨c, h1, _, ⟨x, hxa, h3⟩, h4⟩
    obtain ⟨n1, n2⟩ := hn c h1 h4
    rcases hx x hxa with rfl | rfl
    · rw [n1] at h3; cases h3
    · rw [n2] at h3; cases h3
  by_cases hfirst : FirstHas own comps
  · obtain ⟨p, hp, h⟩ := names_painted_partial dflt ho hc (Or.inl ⟨hfirst, rfl⟩)
    refine ⟨p, hp, ?_⟩
    rcases h f hf with ⟨k, _, h2⟩ | ⟨_, h2⟩
    · exact absurd h2 (none_given _ (by simp) k)
    · exact h2
  · obtain ⟨p, hp, h⟩ := names_painted_partial dflt ho hc (Or.inr ⟨hfirst, rfl⟩)
    refine ⟨p, hp, ?_⟩
    rcases h f hf with ⟨k, _, h2⟩ | ⟨_, h2⟩
    · exact absurd h2 (none_given _ (by simp) k)
    · exact h2

/-! ## Names of blocks -/

/-- Names given to polyhedra. -/
def cellNames (b : Block D) : List (Nat × Str) := named b.name b.cells.flatten

/-- Every polyhedron of the solid has the name of a named block it is in, or `No_name` when there is none. -/
theorem cells_named {n : Nat} {blocks : List (Block D)} (h : ∀ b ∈ blocks, ∀ f ∈ b.cells.flatten, f < n) : ∃ names, paintCells n blocks = .ok names ∧
    names.length = n ∧ ∀ f < n, (∃ k, names[f]? = some k ∧ ∃ b ∈ blocks, b.name = some k ∧ f ∈ b.cells.flatten) ∨
      ((∀ b ∈ blocks, f ∈ b.cells.flatten → b.name = none) ∧ names[f]? = some cs!"No_name") := by
  have go : ∀ (bs : List (Block D)) (l : List Str), l.length = n → (∀ b ∈ bs, ∀ f ∈ b.cells.flatten, f < n) →
      foldM' (fun names (b : Block D) => match b.name with
        | none => (.ok names : Res (List Str))
        | some k => Res.foldM' (fun names f => setAt names f k) names b.cells.flatten) l bs = .ok (applyTo l (bs.flatMap cellNames)) := by
    intro bs
    induction bs with
    | nil => intro l _ _; rfl
    | cons b bs ih =>
      intro l hl hb
      rw [foldM'_cons, List.flatMap_cons, applyTo_append]
      have e : (match b.name with
        | none => (.ok l : Res (List Str))
        | some k => Res.foldM' (fun names f => setAt names f k) l b.cells.flatten) = .ok (applyTo l (cellNames b)) := by
        unfold cellNames
        cases b.name with
        | none => rfl
        | some k =>
          simp only [named]
          have hfs := hb b (by simp)
          generalize b.cells.flatten = fs at hfs
          clear ih hb
          induction fs generalizing l with
          | nil => rfl
          | cons f fs ih2 =>
            rw [foldM'_cons, setAt_ok _ (by rw [hl]; exact hfs f (by simp)), ok_bind, ih2 (l.set f k) (by simpa using hl) (fun x hx => hfs x (by simp [hx]))]
            rfl
      rw [e, ok_bind]
      exact ih _ (by simpa using hl) (fun x hx => hb x (by simp [hx]))
  refine ⟨_, go blocks _ (by simp) h, by simp, ?_⟩
  intro f hf
  have mem : ∀ k, (f, k) ∈ blocks.flatMap cellNames ↔ ∃ b ∈ blocks, b.name = some k ∧ f ∈ b.cells.flatten := by
    intro k
    rw [List.mem_flatMap]
    constructor
    · rintro ⟨b, hb, hx⟩
      unfold cellNames named at hx
      split at hx
      · rename_i k' hk
        obtain ⟨g, hg, eg⟩ := List.mem_map.1 hx
        cases eg
        exact ⟨b, hb, hk, hg⟩
      · simp at hx
    · rintro ⟨b, hb, hk, hx⟩
      refine ⟨b, hb, ?_⟩
      unfold cellNames named
      rw [hk]
      exact List.mem_map.2 ⟨f, hx, rfl⟩
  rcases applyTo_get (blocks.flatMap cellNames) (List.replicate n cs!"No_name") f (by simpa using hf) with ⟨v, h1, h2⟩ | ⟨h1, h2⟩
  · exact Or.inl ⟨v, h1, (mem v).1 h2⟩
  · refine Or.inr ⟨?_, ?_⟩
    · intro b hb hfb
      cases hk : b.name with
      | none => rfl
      | some k => exact absurd ((mem k).2 ⟨b, hb, hk, hfb⟩) (h1 k)
    · rw [h2, List.getElem?_replicate, if_pos hf]

/-- The list of a vertex: the label of each block as many times as the block has vertices there. -/
def labels (blocks : List (Block D)) (v : Nat) : List Str := blocks.flatMap fun b => List.replicate (b.vertices.count v) b.label

/-- Every vertex of the solid has the labels of the blocks with vertices there, in the order of the blocks, one per vertex of the block. -/
theorem vertices_labelled {n : Nat} {blocks : List (Block D)} (h : ∀ b ∈ blocks, ∀ v ∈ b.vertices, v < n) :
    paintVertices n blocks = .ok ((List.range n).map (labels blocks)) := by
  have inner : ∀ (k : Str) (vs : List Nat) (g : Nat → List Str), (∀ v ∈ vs, v < n) →
      foldM' (fun (lists : List (List Str)) v => do
        let l ← Res.index lists v
        setAt lists v (l ++ [k])) ((List.range n).map g) vs = .ok ((List.range n).map fun v => g v ++ List.replicate (vs.count v) k) := by
    intro k vs
    induction vs with
    | nil => intro g _; simp [foldM']
    | cons v vs ih =>
      intro g hv
      have hvn := hv v (by simp)
      rw [foldM'_cons, index_of_lt (by simpa using hvn), ok_bind, setAt_ok _ (by simpa using hvn), ok_bind]
      have e : ((List.range n).map g).set v (((List.range n).map g)[v]'(by simpa using hvn) ++ [k]) =
          (List.range n).map fun x => if x = v then g v ++ [k] else g x := by
        apply List.ext_getElem?
        intro i
        rw [List.getElem?_set]
        by_cases hi : v = i
        · subst hi
          simp [hvn]
        · rw [if_neg hi, List.getElem?_map, List.getElem?_map]
          by_cases hin : i < n
          · simp [hin, Ne.symm hi]
          · simp [hin]
      rw [e, ih _ (fun x hx => hv x (by simp [hx]))]
      congr 1
      apply List.map_congr_left
      intro x _
      by_cases hx : x = v
      · subst hx
        rw [if_pos rfl, List.count_cons_self, List.replicate_succ, List.append_assoc]; rfl
      · rw [if_neg hx, List.count_cons_of_ne (Ne.symm hx)]
  have go : ∀ (bs : List (Block D)) (g : Nat → List Str), (∀ b ∈ bs, ∀ v ∈ b.vertices, v < n) →
      foldM' (fun lists (b : Block D) => Res.foldM' (fun (lists : List (List Str)) v => do
        let l ← Res.index lists v
        setAt lists v (l ++ [b.label])) lists b.vertices) ((List.range n).map g) bs = .ok ((List.range n).map fun v => g v ++ labels bs v) := by
    intro bs
    induction bs with
    | nil => intro g _; simp [foldM', labels]
    | cons b bs ih =>
      intro g hb
      rw [foldM'_cons, inner b.label b.vertices g (hb b (by simp)), ok_bind, ih _ (fun x hx => hb x (by simp [hx]))]
      congr 1
      apply List.map_congr_left
      intro x _
      simp [labels]
  have start : List.replicate n ([] : List Str) = (List.range n).map fun _ => [] := by
    apply List.ext_getElem? ; intro i
    by_cases hi : i < n
    · simp [hi]
    · simp [hi]
  unfold paintVertices
  rw [start, go blocks _ h]
  simp

/-- A block with two vertices at one vertex of the solid (along a fault that ends inside it, for instance) is listed twice there. -/
theorem block_listed_twice {n : Nat} {b : Block D} {before after : List (Block D)} {v : Nat} (h : ∀ x ∈ before ++ b :: after, ∀ w ∈ x.vertices, w < n) (hv : v < n)
    (h2 : 2 ≤ b.vertices.count v) : ∃ lists l, paintVertices n (before ++ b :: after) = .ok lists ∧ lists[v]? = some l ∧ 2 ≤ l.count b.label := by
  refine ⟨_, labels (before ++ b :: after) v, vertices_labelled h, by simp [hv], ?_⟩
  unfold labels
  rw [List.flatMap_append, List.flatMap_cons, List.count_append, List.count_append, List.count_replicate_self]
  omega

/-- Blocks with at most one vertex at each vertex of the solid and different labels are listed once. -/
theorem block_listed_once_partial {n : Nat} {blocks : List (Block D)} (h : ∀ b ∈ blocks, ∀ v ∈ b.vertices, v < n) (hn : ∀ b ∈ blocks, b.vertices.Nodup)
    (hl : (blocks.map Block.label).Nodup) {v : Nat} (hv : v < n) : ∃ lists l, paintVertices n blocks = .ok lists ∧ lists[v]? = some l ∧ l.Nodup ∧
      ∀ k, k ∈ l ↔ ∃ b ∈ blocks, b.label = k ∧ v ∈ b.vertices := by
  refine ⟨_, labels blocks v, vertices_labelled h, by simp [hv], ?_, ?_⟩
  · have e : ∀ (bs : List (Block D)), (∀ b ∈ bs, b.vertices.Nodup) → labels bs v = (bs.filter fun b => v ∈ b.vertices).map Block.label := by
      intro bs
      induction bs with
      | nil => intro _; rfl
      | cons b bs ih =>
        intro hb
        have i := ih (fun x hx => hb x (by simp [hx]))
        unfold labels at i ⊢
        rw [List.flatMap_cons, i]
        by_cases hm : v ∈ b.vertices
        · rw [(hb b (by simp)).count, if_pos hm]
          simp [hm]
        · rw [List.count_eq_zero_of_not_mem hm]
          simp [hm]
    rw [e blocks hn]
    exact hl.sublist (List.filter_sublist.map _)
  · intro k
    unfold labels
    rw [List.mem_flatMap]
    constructor
    · rintro ⟨b, hb, hk⟩
      obtain ⟨h1, h2⟩ := List.mem_replicate.1 hk
      exact ⟨b, hb, h2.symm, List.count_pos_iff.1 (by omega)⟩
    · rintro ⟨b, hb, hk, hvb⟩
      exact ⟨b, hb, List.mem_replicate.2 ⟨by have := List.count_pos_iff.2 hvb; omega, hk.symm⟩⟩

example : paintVertices 2 [(⟨some cs!"a", cs!"u", [], [], [0, 0]⟩ : Block Int), ⟨none, cs!"w", [], [], [0, 1]⟩] =
    .ok [[cs!"a", cs!"a", cs!"w"], [cs!"w"]] := by decide

/-! ## Attributes of polyhedra -/

/-- The values that an attribute of a block has for polyhedra of the solid. -/
def cellWrites (x : Block D × Attr D) : List (Nat × D) := (x.1.cells.map fun fs => fs.headD 0).zip x.2.values

/-- The attribute has a value for each polyhedron, there is one, and the polyhedra are in the solid. -/
def CellFits (n : Nat) (x : Block D × Attr D) : Prop :=
  x.1.cells ≠ [] ∧ x.2.values.length = x.1.cells.length ∧ ∀ fs ∈ x.1.cells, fs ≠ [] ∧ ∀ f ∈ fs, f < n

/-- The attributes of the blocks, in the order of the copies. -/
def copies (blocks : List (Block D)) : List (Block D × Attr D) := blocks.flatMap fun b => b.attrs.map fun a => (b, a)

theorem copyAttrs_eq (n : Nat) (blocks : List (Block D)) : copyAttrs n blocks = foldM' (fun solid x => copyAttr n x.1 solid x.2) [] (copies blocks) := by
  unfold copyAttrs copies
  generalize ([] : List (Attr D)) = s
  induction blocks generalizing s with
  | nil => rfl
  | cons b bs ih =>
    rw [foldM'_cons, List.flatMap_cons, foldM'_append]
    have e : ∀ (as : List (Attr D)) (s : List (Attr D)), foldM' (copyAttr n b) s as = foldM' (fun solid (x : Block D × Attr D) => copyAttr n x.1 solid x.2) s (as.map fun a => (b, a)) := by
      intro as
      induction as with
      | nil => intro s; rfl
      | cons a as ih => intro s; rw [List.map_cons, foldM'_cons, foldM'_cons]; congr 1; funext s'; exact ih s'
    rw [e]
    congr 1
    funext s'
    exact ih s'

theorem copyCells {n : Nat} (values : List D) : ∀ (cells : List (List Nat)) (k : Nat) (l : List D), cells.length + k ≤ values.length →
    (∀ fs ∈ cells, fs ≠ [] ∧ ∀ f ∈ fs, f < n) → l.length = n →
    foldM' (fun (vs : List D) (e : List Nat × Nat) => do
      let f ← Res.index e.1 0
      let v ← Res.index values e.2
      setAt vs f v) l (cells.zipIdx k) = .ok (applyTo l ((cells.map fun fs => fs.headD 0).zip (values.drop k))) := by
  intro cells
  induction cells with
  | nil => intro k l _ _ _; rfl
  | cons fs cells ih =>
    intro k l hk hf hl
    rw [List.length_cons] at hk
    obtain ⟨hne, hfs⟩ := hf fs (by simp)
    obtain ⟨f, rest, rfl⟩ := List.exists_cons_of_ne_nil hne
    have hd : values.drop k = values[k]'(by omega) :: values.drop (k + 1) := by
      rw [List.drop_eq_getElem_cons (by omega)]
    rw [List.zipIdx_cons, foldM'_cons]
    simp only
    rw [index_of_lt (by simp), ok_bind, index_of_lt (by omega), ok_bind]
    have : (f :: rest)[0] = f := rfl
    rw [this, setAt_ok _ (by rw [hl]; exact hfs f (by simp)), ok_bind, ih (k + 1) _ (by omega) (fun x hx => hf x (by simp [hx])) (by simpa using hl), hd]
    rfl

theorem find_copy (solid : List (Attr D)) (a k : Str) (vs : List D) :
    find (solid.filter (fun x => x.name ≠ a) ++ [⟨a, vs⟩]) k = if a = k then some ⟨a, vs⟩ else find solid k := by
  unfold find
  rw [List.find?_append]
  by_cases h : a = k
  · subst h
    have : (solid.filter fun x => x.name ≠ a).find? (fun x => decide (x.name = a)) = none := by
      rw [List.find?_eq_none]
      intro x hx
      simpa using (List.mem_filter.1 hx).2
    rw [this, if_pos rfl]; simp
  · rw [if_neg h]
    have e : (solid.filter fun x => x.name ≠ a).find? (fun x => decide (x.name = k)) = solid.find? fun x => decide (x.name = k) := by
      induction solid with
      | nil => rfl
      | cons x solid ih =>
        by_cases hx : x.name = a
        · have hxk : x.name ≠ k := fun e => h (hx ▸ e)
          rw [List.filter_cons_of_neg (by simp [hx]), List.find?_cons_of_neg (by simp [hxk])]
          exact ih
        · rw [List.filter_cons_of_pos (by simp [hx])]
          by_cases hxk : x.name = k
          · rw [List.find?_cons_of_pos (by simp [hxk]), List.find?_cons_of_pos (by simp [hxk])]
          · rw [List.find?_cons_of_neg (by simp [hxk]), List.find?_cons_of_neg (by simp [hxk])]
            exact ih
    rw [e]; simp [h]

/-- The attribute of the solid for the copies with a name. -/
def copied (n : Nat) (k : Str) : List (Block D × Attr D) → Option (Attr D)
  | [] => none
  | x :: xs => x.2.values.head?.map fun v0 => ⟨k, applyTo (List.replicate n v0) ((x :: xs).flatMap cellWrites)⟩

/-- The copies of a name. -/
def withName (k : Str) (l : List (Block D × Attr D)) : List (Block D × Attr D) := l.filter fun x => x.2.name = k

theorem mem_of_filter {α : Type} {p : α → Bool} {l : List α} {a : α} (h : a ∈ l.filter p) : a ∈ l := (List.mem_filter.1 h).1

/-- Every attribute of the solid has the values of the blocks with it, and the value of the first polyhedron of the first of these blocks elsewhere. -/
theorem attributes_copied {n : Nat} {blocks : List (Block D)} (h : ∀ x ∈ copies blocks, CellFits n x) :
    ∃ solid, copyAttrs n blocks = .ok solid ∧ ∀ k, find solid k = copied n k (withName k (copies blocks)) := by
  rw [copyAttrs_eq]
  generalize copies blocks = l at h
  have go : ∀ (l : List (Block D × Attr D)), (∀ x ∈ l.reverse, CellFits n x) →
      ∃ solid, foldM' (fun solid (x : Block D × Attr D) => copyAttr n x.1 solid x.2) [] l.reverse = .ok solid ∧ ∀ k, find solid k = copied n k (withName k l.reverse) := by
    intro l
    induction l with
    | nil => intro _; exact ⟨[], rfl, fun k => rfl⟩
    | cons x l ih =>
      intro h
      obtain ⟨solid, h1, h2⟩ := ih (fun y hy => h y (by simp at hy ⊢; exact Or.inl hy))
      obtain ⟨f1, f2, f3⟩ := h x (by simp)
      have hpos : 0 < x.2.values.length := by rw [f2]; exact List.length_pos_iff.2 f1
      -- the values before the copy
      have hstart : ∃ start : List D, startValues n solid x.2.name (x.2.values[0]'hpos) = start ∧ start.length = n ∧
          copied n x.2.name (withName x.2.name (l.reverse ++ [x])) = some ⟨x.2.name, applyTo start (cellWrites x)⟩ := by
        refine ⟨_, rfl, ?_⟩
        unfold startValues
        rw [h2]
        have hw : withName x.2.name (l.reverse ++ [x]) = withName x.2.name l.reverse ++ [x] := by simp [withName]
        rw [hw]
        cases hl : withName x.2.name l.reverse with
        | nil =>
          have hh : x.2.values.head? = some (x.2.values[0]'hpos) := by rw [List.head?_eq_getElem?, List.getElem?_eq_getElem hpos]
          simp [copied, hh]
        | cons y ys =>
          have hy : y ∈ l.reverse := mem_of_filter (by unfold withName at hl; rw [hl]; simp)
          obtain ⟨g1, g2, _⟩ := h y (by simp at hy ⊢; exact Or.inl hy)
          have hypos : 0 < y.2.values.length := by rw [g2]; exact List.length_pos_iff.2 g1
          have hh : y.2.values.head? = some (y.2.values[0]'hypos) := by rw [List.head?_eq_getElem?, List.getElem?_eq_getElem hypos]
          simp only [copied, List.cons_append, hh, Option.map_some, length_applyTo, List.length_replicate, true_and]
          rw [← List.cons_append, List.flatMap_append, applyTo_append]
          simp
      obtain ⟨start, e1, e2, e3⟩ := hstart
      have step : copyAttr n x.1 solid x.2 = .ok (solid.filter (fun y => y.name ≠ x.2.name) ++ [⟨x.2.name, applyTo start (cellWrites x)⟩]) := by
        unfold copyAttr
        rw [index_of_lt hpos, ok_bind, e1, copyCells x.2.values x.1.cells 0 start (by omega) f3 e2, ok_bind]
        rfl
      refine ⟨_, by rw [List.reverse_cons, foldM'_append, h1, ok_bind, foldM'_cons, step]; rfl, ?_⟩
      intro k
      rw [find_copy, List.reverse_cons]
      by_cases hk : x.2.name = k
      · subst hk
        rw [if_pos rfl, e3]
      · rw [if_neg hk, h2]
        have : withName k (l.reverse ++ [x]) = withName k l.reverse := by simp [withName, hk]
        rw [this]
  have := go l.reverse
  rw [List.reverse_reverse] at this
  exact this h

/-- A block with the attribute has this value for this polyhedron of the solid. -/
def CellGives (blocks : List (Block D)) (k : Str) (f : Nat) (v : D) : Prop := ∃ x ∈ copies blocks, x.2.name = k ∧ (f, v) ∈ cellWrites x

/-- A polyhedron that the blocks give one value for has this value. -/
theorem value_copied {n : Nat} {blocks : List (Block D)} (h : ∀ x ∈ copies blocks, CellFits n x) {k : Str} {f : Nat} (hf : f < n) {v : D}
    (hv : CellGives blocks k f v) (hu : ∀ w, CellGives blocks k f w → w = v) :
    ∃ solid a, copyAttrs n blocks = .ok solid ∧ find solid k = some a ∧ a.values[f]? = some v := by
  obtain ⟨solid, h1, h2⟩ := attributes_copied h
  have hk := h2 k
  have gives : ∀ w, (f, w) ∈ (withName k (copies blocks)).flatMap cellWrites ↔ CellGives blocks k f w := by
    intro w
    unfold CellGives withName
    rw [List.mem_flatMap]
    constructor
    · rintro ⟨x, hx, hw⟩
      obtain ⟨a1, a2⟩ := List.mem_filter.1 hx
      exact ⟨x, a1, by simpa using a2, hw⟩
    · rintro ⟨x, a1, a2, hw⟩
      exact ⟨x, List.mem_filter.2 ⟨a1, by simpa using a2⟩, hw⟩
  cases hl : withName k (copies blocks) with
  | nil =>
    have := (gives v).2 hv
    rw [hl] at this; simp at this
  | cons x xs =>
    have hx : x ∈ copies blocks := mem_of_filter (by unfold withName at hl; rw [hl]; simp)
    obtain ⟨g1, g2, _⟩ := h x hx
    have hpos : 0 < x.2.values.length := by rw [g2]; exact List.length_pos_iff.2 g1
    have hh : x.2.values.head? = some (x.2.values[0]'hpos) := by rw [List.head?_eq_getElem?, List.getElem?_eq_getElem hpos]
    rw [hl] at hk gives
    simp only [copied, hh, Option.map_some] at hk
    refine ⟨solid, _, h1, hk, ?_⟩
    simp only
    rcases applyTo_get ((x :: xs).flatMap cellWrites) (List.replicate n (x.2.values[0]'hpos)) f (by simpa using hf) with ⟨w, a1, a2⟩ | ⟨a1, _⟩
    · rw [a1, hu w ((gives w).1 a2)]
    · exact absurd ((gives v).2 hv) (a1 v)

/-- A polyhedron of a block without the attribute gets the value of the first polyhedron of the first block with it. -/
theorem foreign_value {n : Nat} {blocks : List (Block D)} (h : ∀ x ∈ copies blocks, CellFits n x) {k : Str} {f : Nat} (hf : f < n)
    (hn : ∀ w, ¬ CellGives blocks k f w) {x : Block D × Attr D} {xs : List (Block D × Attr D)} (hx : withName k (copies blocks) = x :: xs) :
    ∃ solid a, copyAttrs n blocks = .ok solid ∧ find solid k = some a ∧ a.values[f]? = x.2.values[0]? := by
  obtain ⟨solid, h1, h2⟩ := attributes_copied h
  have hk := h2 k
  have hxc : x ∈ copies blocks := mem_of_filter (by unfold withName at hx; rw [hx]; simp)
  obtain ⟨g1, g2, _⟩ := h x hxc
  have hpos : 0 < x.2.values.length := by rw [g2]; exact List.length_pos_iff.2 g1
  have hh : x.2.values.head? = some (x.2.values[0]'hpos) := by rw [List.head?_eq_getElem?, List.getElem?_eq_getElem hpos]
  rw [hx] at hk
  simp only [copied, hh, Option.map_some] at hk
  refine ⟨solid, _, h1, hk, ?_⟩
  simp only
  rcases applyTo_get ((x :: xs).flatMap cellWrites) (List.replicate n (x.2.values[0]'hpos)) f (by simpa using hf) with ⟨w, a1, a2⟩ | ⟨_, a2⟩
  · rw [← hx] at a2
    obtain ⟨y, hy, hw⟩ := List.mem_flatMap.1 a2
    obtain ⟨b1, b2⟩ := List.mem_filter.1 hy
    exact absurd ⟨y, b1, by simpa using b2, hw⟩ (hn w)
  · rw [a2, List.getElem?_replicate, if_pos hf, List.getElem?_eq_getElem hpos]

/-- Witness: the second block has no porosity and gets that of the first one. -/
theorem foreign_witness : copyAttrs 2 [(⟨none, [], [⟨cs!"porosity", [7]⟩], [[0]], []⟩ : Block Int), ⟨none, [], [], [[1]], []⟩] =
    .ok [⟨cs!"porosity", [7, 7]⟩] := by decide

/-- An attribute of a block without polyhedra is undefined behaviour. -/
theorem empty_block_ub (n : Nat) (b : Block D) (a : Attr D) (as : List (Attr D)) (rest : List (Block D)) (ha : a.values = []) (hb : b.attrs = a :: as) :
    copyAttrs n (b :: rest) = .ub := by
  unfold copyAttrs
  rw [foldM'_cons, hb, foldM'_cons]
  have : copyAttr n b [] a = .ub := by unfold copyAttr; rw [ha]; rfl
  rw [this]; rfl

end Verif.Props.BrepFem
