import Verif.Lemmas.GocadLoad
import Verif.Model.GocadMesh

/-!
# Readers on a truncated file
-/

namespace Verif.GocadCut

open Verif Verif.Gocad Verif.GocadMesh

variable {D : Type} [Num D]

/-- How a reader behaves on the prefixes of a file it reads successfully.  `used` are the lines it consumes.  A prefix that stops
inside `used` makes it throw (or, when `e` holds, possibly stop normally at the end of the file); a prefix that contains `used`
gives the same result. -/
def CutAt (e : Prop) {α : Type} (R : File → Res (α × File)) (f : File) : Prop :=
  ∀ a rest, R f = .ok (a, rest) → ∃ used, f = used ++ rest ∧ ∀ p, p <+: f →
    (p.length < used.length ∧ (R p = .throw ∨ (e ∧ ∃ a', R p = .ok (a', [])))) ∨ (∃ q, p = used ++ q ∧ R p = .ok (a, q))

/-- The same for every file. -/
def Cut (e : Prop) {α : Type} (R : File → Res (α × File)) : Prop := ∀ f, CutAt e R f

/-- The reader on an empty rest of file. -/
def AtEnd (e : Prop) {α : Type} (R : File → Res (α × File)) : Prop := R [] = .throw ∨ (e ∧ ∃ a', R [] = .ok (a', []))

theorem Cut.bind {e1 e2 : Prop} {α β : Type} {R : File → Res (α × File)} {K : α → File → Res (β × File)} (h1 : Cut e1 R)
    (h2 : ∀ a, Cut e2 (K a)) (h0 : e1 → ∀ a, AtEnd e2 (K a)) : Cut e2 fun f => R f >>= fun r => K r.1 r.2 := by
  intro f b rest h
  obtain ⟨⟨a, f1⟩, hR, hK⟩ := Res.bind_eq_ok.1 h
  obtain ⟨u1, rfl, hu1⟩ := h1 _ _ _ hR
  obtain ⟨u2, rfl, hu2⟩ := h2 a _ _ _ hK
  refine ⟨u1 ++ u2, by simp, ?_⟩
  intro p hp
  rcases hu1 p hp with ⟨hl, ht | ⟨he, a', ha'⟩⟩ | ⟨q, rfl, hq⟩
  · exact Or.inl ⟨by simp; omega, Or.inl (by simp only [ht, Res.throw_bind])⟩
  · refine Or.inl ⟨by simp; omega, ?_⟩
    rcases h0 he a' with h | ⟨h, b', hb'⟩
    · exact Or.inl (by simp only [ha', Res.ok_bind, h])
    · exact Or.inr ⟨h, b', by simp only [ha', Res.ok_bind, hb']⟩
  · have hqp : q <+: u2 ++ rest := by
      obtain ⟨t, ht⟩ := hp
      rw [List.append_assoc] at ht
      exact ⟨t, List.append_cancel_left ht⟩
    rcases hu2 q hqp with ⟨hl, h⟩ | ⟨q', rfl, hq'⟩
    · refine Or.inl ⟨by simp; omega, ?_⟩
      simpa only [hq, Res.ok_bind] using h
    · exact Or.inr ⟨q', by simp, by simp only [hq, Res.ok_bind, hq']⟩

theorem Cut.bind' {e2 : Prop} {α β : Type} {R : File → Res (α × File)} {K : α × File → Res (β × File)} (h1 : Cut False R)
    (h2 : ∀ a, Cut e2 fun f => K (a, f)) : Cut e2 fun f => R f >>= K :=
  Cut.bind (K := fun a f => K (a, f)) h1 h2 (fun h => h.elim)

theorem AtEnd.bind {e : Prop} {α β : Type} {R : File → Res (α × File)} {K : α → File → Res (β × File)} (h : AtEnd False R) :
    AtEnd e fun f => R f >>= fun r => K r.1 r.2 := by
  rcases h with h | ⟨h, _⟩
  · exact Or.inl (by simp only [h, Res.throw_bind])
  · exact h.elim

/-- A step that does not read. -/
theorem cut_pure {α : Type} {e : Prop} (r : Res α) : Cut e fun f => r >>= fun a => .ok (a, f) := by
  intro f a rest h
  obtain ⟨b, rfl, hb⟩ := Res.bind_eq_ok.1 h
  simp only [Res.ok.injEq, Prod.mk.injEq] at hb
  obtain ⟨rfl, rfl⟩ := hb
  exact ⟨[], rfl, fun p _ => Or.inr ⟨p, rfl, rfl⟩⟩

theorem CutAt.go {e : Prop} {α : Type} {R K : File → Res (α × File)} {l : Str} {ls : File} (hR : ∀ ls, R (l :: ls) = K ls)
    (hK : CutAt e K ls) (h0 : AtEnd e R) : CutAt e R (l :: ls) := by
  intro a rest h
  rw [hR] at h
  obtain ⟨u, rfl, hu⟩ := hK a rest h
  refine ⟨l :: u, rfl, ?_⟩
  intro p hp
  cases p with
  | nil => exact Or.inl ⟨by simp, h0⟩
  | cons x p =>
    obtain ⟨rfl, hp'⟩ := List.cons_prefix_cons.1 hp
    rcases hu p hp' with ⟨hl, h⟩ | ⟨q, rfl, hq⟩
    · exact Or.inl ⟨by simp; omega, by simpa only [hR] using h⟩
    · exact Or.inr ⟨q, rfl, by rw [hR]; exact hq⟩

theorem CutAt.stop {e : Prop} {α : Type} {R : File → Res (α × File)} {l : Str} {ls : File} {a : α} (hR : ∀ ls, R (l :: ls) = .ok (a, ls))
    (h0 : AtEnd e R) : CutAt e R (l :: ls) := by
  refine CutAt.go (K := fun f => .ok (a, f)) hR ?_ h0
  exact cut_pure (.ok a) ls

theorem CutAt.none {e : Prop} {α : Type} {R : File → Res (α × File)} {f : File} (h : ∀ x, R f ≠ .ok x) : CutAt e R f :=
  fun a rest hf => absurd hf (h (a, rest))

theorem CutAt.nil {e : Prop} {α : Type} {R : File → Res (α × File)} (h : AtEnd e R) : CutAt e R [] := by
  rcases h with h | ⟨_, a', h⟩
  · exact CutAt.none fun x => by rw [h]; simp
  · intro a rest hf
    rw [h] at hf
    simp only [Res.ok.injEq, Prod.mk.injEq] at hf
    obtain ⟨rfl, rfl⟩ := hf
    refine ⟨[], rfl, fun p hp => Or.inr ⟨[], ?_, ?_⟩⟩
    · simpa using hp
    · have : p = [] := by simpa using hp
      rw [this, h]

/-! ## The readers -/

theorem gotoKeyword_cut (kw : Str) : Cut False (gotoKeyword kw) := by
  intro f
  induction f with
  | nil => exact CutAt.nil (Or.inl rfl)
  | cons l ls ih =>
    by_cases h : startsWith l kw = true
    · exact CutAt.stop (a := l) (fun ls => by simp [gotoKeyword, gotoKeyword?, h, Res.ofParse]) (Or.inl rfl)
    · exact CutAt.go (fun ls => by simp [gotoKeyword, gotoKeyword?, h]) ih (Or.inl rfl)

theorem gotoKeywords_cut (kws : List Str) : Cut False (gotoKeywords kws) := by
  intro f
  induction f with
  | nil => exact CutAt.nil (Or.inl rfl)
  | cons l ls ih =>
    by_cases h : kws.any (startsWith l) = true
    · exact CutAt.stop (a := l) (fun ls => by simp only [gotoKeywords, if_pos h]) (Or.inl rfl)
    · exact CutAt.go (fun ls => by simp only [gotoKeywords, if_neg h]) ih (Or.inl rfl)

theorem readHeaderLoop_cut (name : Option Str) : Cut False (readHeaderLoop name) := by
  intro f
  induction f generalizing name with
  | nil => exact CutAt.nil (Or.inl rfl)
  | cons l ls ih =>
    by_cases h : startsWith l cs!"}" = true
    · exact CutAt.stop (a := name) (fun ls => by simp only [readHeaderLoop, if_pos h]) (Or.inl rfl)
    · cases ha : afterFirst cs!"name:" l with
      | some r => exact CutAt.go (K := readHeaderLoop (some (readName (split r)))) (fun ls => by simp only [readHeaderLoop, if_neg h, ha]) (ih _) (Or.inl rfl)
      | none => exact CutAt.go (K := readHeaderLoop name) (fun ls => by simp only [readHeaderLoop, if_neg h, ha]) (ih _) (Or.inl rfl)

theorem readHeader_cut : Cut False readHeader := by
  intro f
  cases f with
  | nil => exact CutAt.nil (Or.inl rfl)
  | cons l ls =>
    by_cases h : startsWith l cs!"HEADER" = true
    · refine CutAt.go (K := readHeaderLoop none) (fun ls => ?_) (readHeaderLoop_cut _ _) (Or.inl rfl)
      simp only [readHeader, checkKeyword, if_pos h, Res.ok_bind]
    · refine CutAt.none fun x => ?_
      simp only [readHeader, checkKeyword, if_neg h, Res.throw_bind]
      simp

theorem readCrsLoop_cut (c : Crs) : Cut False (readCrsLoop c) := by
  intro f
  induction f generalizing c with
  | nil => exact CutAt.nil (Or.inl rfl)
  | cons l ls ih =>
    by_cases h : startsWith l cs!"END_ORIGINAL_COORDINATE_SYSTEM" = true
    · exact CutAt.stop (a := c) (fun ls => by simp only [readCrsLoop, if_pos h]) (Or.inl rfl)
    · cases hc : crsLine c l with
      | ok c' => exact CutAt.go (K := readCrsLoop c') (fun ls => by simp only [readCrsLoop, if_neg h, hc, Res.ok_bind]) (ih _) (Or.inl rfl)
      | throw => exact CutAt.none fun x => by simp only [readCrsLoop, if_neg h, hc, Res.throw_bind]; simp
      | ub => exact CutAt.none fun x => by simp only [readCrsLoop, if_neg h, hc, Res.ub_bind]; simp
      | diverge => exact CutAt.none fun x => by simp only [readCrsLoop, if_neg h, hc, Res.diverge_bind]; simp

theorem readCrs_cut : Cut True readCrs := by
  intro f
  cases f with
  | nil => exact CutAt.nil (Or.inr ⟨trivial, {}, rfl⟩)
  | cons l ls =>
    by_cases h : startsWith l cs!"GOCAD_ORIGINAL_COORDINATE_SYSTEM" = true
    · refine CutAt.go (K := readCrsLoop {}) (fun ls => ?_) ?_ (Or.inr ⟨trivial, {}, rfl⟩)
      · simp only [readCrs, nextKeyword?, if_pos h]
      · intro a rest hf
        obtain ⟨u, hu, hp⟩ := readCrsLoop_cut {} ls a rest hf
        refine ⟨u, hu, fun p hpf => ?_⟩
        rcases hp p hpf with ⟨hl, h | ⟨h, _⟩⟩ | h
        · exact Or.inl ⟨hl, Or.inl h⟩
        · exact h.elim
        · exact Or.inr h
    · intro a rest hf
      have e : ∀ ls, readCrs (l :: ls) = .ok ({}, l :: ls) := fun ls => by simp only [readCrs, nextKeyword?, if_neg h]
      rw [e] at hf
      simp only [Res.ok.injEq, Prod.mk.injEq] at hf
      obtain ⟨rfl, rfl⟩ := hf
      refine ⟨[], rfl, fun p hp => Or.inr ⟨p, rfl, ?_⟩⟩
      cases p with
      | nil => rfl
      | cons x p =>
        obtain ⟨rfl, _⟩ := List.cons_prefix_cons.1 hp
        exact e p

theorem Cut.weaken {e e' : Prop} {α : Type} {R : File → Res (α × File)} (h : Cut e R) (he : e → e') : Cut e' R := by
  intro f a rest hf
  obtain ⟨u, hu, hp⟩ := h f a rest hf
  refine ⟨u, hu, fun p hpf => ?_⟩
  rcases hp p hpf with ⟨hl, h | ⟨h, x⟩⟩ | h
  · exact Or.inl ⟨hl, Or.inl h⟩
  · exact Or.inl ⟨hl, Or.inr ⟨he h, x⟩⟩
  · exact Or.inr h

/-- A keyword line whose tokens are then decoded. -/
theorem cut_keyword {α : Type} (kw : Str) (g : Str → Res α) :
    Cut False fun f => gotoKeyword kw f >>= fun r => g r.1 >>= fun a => .ok (a, r.2) :=
  Cut.bind (gotoKeyword_cut kw) (fun l => cut_pure (g l)) (fun h => h.elim)

theorem readOneString_cut (kw : Str) (n : Nat) : Cut False (readOneString kw n) := by
  have h := cut_keyword kw fun l => splitQuoted l >>= fun toks => takeN n toks.tail
  refine fun f => ?_
  have e : readOneString kw n = fun f => gotoKeyword kw f >>= fun r =>
      (splitQuoted r.1 >>= fun toks => takeN n toks.tail) >>= fun a => .ok (a, r.2) := by
    funext f; simp only [readOneString, Res.bind_assoc', Res.pure_eq]
  rw [e]; exact h f

theorem readTwoStrings_cut (kw : Str) (n : Nat) : Cut False (readTwoStrings kw n) :=
  cut_keyword kw fun l => takePairs n (split l).tail

theorem readOneDouble_cut (kw : Str) (n : Nat) : Cut False (readOneDouble kw n : File → Res (List D × File)) := by
  have h := cut_keyword kw fun l => takeN n (split l).tail >>= fun toks => (Res.mapM' readDouble toks : Res (List D))
  have e : (readOneDouble kw n : File → Res (List D × File)) = fun f => gotoKeyword kw f >>= fun r =>
      (takeN n (split r.1).tail >>= fun toks => Res.mapM' readDouble toks) >>= fun a => .ok (a, r.2) := by
    funext f; simp only [readOneDouble, Res.bind_assoc', Res.pure_eq]
  rw [e]; exact h

theorem readOneIndex_cut (kw : Str) (n : Nat) : Cut False (readOneIndex kw n) := by
  have h := cut_keyword kw fun l => takeN n (split l).tail >>= fun toks => Res.mapM' readIndex toks
  have e : readOneIndex kw n = fun f => gotoKeyword kw f >>= fun r =>
      (takeN n (split r.1).tail >>= fun toks => Res.mapM' readIndex toks) >>= fun a => .ok (a, r.2) := by
    funext f; simp only [readOneIndex, Res.bind_assoc', Res.pure_eq]
  rw [e]; exact h

theorem no_false {p : Prop} : False → p := False.elim

theorem readPropHeader_cut (pre : Str) : Cut True (readPropHeader pre : File → Res (PropHeader D × File)) := by
  intro f
  cases f with
  | nil => exact CutAt.nil (Or.inr ⟨trivial, {}, rfl⟩)
  | cons l ls =>
    by_cases h : startsWith l (pre ++ cs!"PROPERTIES") = true
    · refine CutAt.go (K := fun f => splitQuoted l >>= fun toks =>
          if toks.tail.length = 0 then .ok ({}, f) else
          readTwoStrings (pre ++ cs!"PROP_LEGAL_RANGES") toks.tail.length f >>= fun a =>
          readOneDouble (pre ++ cs!"NO_DATA_VALUES") toks.tail.length a.2 >>= fun b =>
          readOneString (pre ++ cs!"PROPERTY_CLASSES") toks.tail.length b.2 >>= fun c =>
          readOneString (pre ++ cs!"PROPERTY_KINDS") toks.tail.length c.2 >>= fun d =>
          readTwoStrings (pre ++ cs!"PROPERTY_SUBCLASSES") toks.tail.length d.2 >>= fun e =>
          readOneIndex (pre ++ cs!"ESIZES") toks.tail.length e.2 >>= fun g =>
          readOneString (pre ++ cs!"UNITS") toks.tail.length g.2 >>= fun i =>
          .ok ({ names := toks.tail, ranges := a.1, noData := b.1, classes := c.1, kinds := d.1, subclasses := e.1, esizes := g.1,
                 units := i.1 }, i.2)) (fun ls => ?_) ?_ (Or.inr ⟨trivial, {}, rfl⟩)
      · simp only [readPropHeader, nextKeyword?, if_pos h, Res.pure_eq]
      · cases hs : splitQuoted l with
        | ok toks =>
          simp only [Res.ok_bind]
          by_cases hn : toks.tail.length = 0
          · simp only [if_pos hn]
            exact cut_pure (.ok ({} : PropHeader D)) ls
          · simp only [if_neg hn]
            refine Cut.weaken (e := False) ?_ no_false ls
            refine Cut.bind' (readTwoStrings_cut _ _) fun a => ?_
            dsimp only
            refine Cut.bind' (readOneDouble_cut (D := D) _ _) fun b => ?_
            dsimp only
            refine Cut.bind' (readOneString_cut _ _) fun c => ?_
            dsimp only
            refine Cut.bind' (readOneString_cut _ _) fun d => ?_
            dsimp only
            refine Cut.bind' (readTwoStrings_cut _ _) fun e => ?_
            dsimp only
            refine Cut.bind' (readOneIndex_cut _ _) fun g => ?_
            dsimp only
            refine Cut.bind' (readOneString_cut _ _) fun i => ?_
            dsimp only
            exact cut_pure (.ok _)
        | throw => exact CutAt.none fun x => by simp
        | ub => exact CutAt.none fun x => by simp
        | diverge => exact CutAt.none fun x => by simp
    · intro a rest hf
      have e : ∀ ls, (readPropHeader pre (l :: ls) : Res (PropHeader D × File)) = .ok ({}, l :: ls) := fun ls => by
        simp only [readPropHeader, nextKeyword?, if_neg h]
      rw [e] at hf
      simp only [Res.ok.injEq, Prod.mk.injEq] at hf
      obtain ⟨rfl, rfl⟩ := hf
      refine ⟨[], rfl, fun p hp => Or.inr ⟨p, rfl, ?_⟩⟩
      cases p with
      | nil => rfl
      | cons x p =>
        obtain ⟨rfl, _⟩ := List.cons_prefix_cons.1 hp
        exact e p

theorem readTfacesLoop_cut (ts : TSurf D) : Cut False (readTfacesLoop ts) := by
  intro f
  induction f generalizing ts with
  | nil => exact CutAt.nil (Or.inl rfl)
  | cons l ls ih =>
    cases hs : split l with
    | nil => exact CutAt.none fun x => by simp only [readTfacesLoop, hs]; simp
    | cons kw args =>
      by_cases h : kw = cs!"END"
      · exact CutAt.stop (a := tsClose ts) (fun ls => by simp only [readTfacesLoop, hs, if_pos h]) (Or.inl rfl)
      · cases hc : tsLine ts kw (kw :: args) with
        | ok c' => exact CutAt.go (K := readTfacesLoop c') (fun ls => by simp only [readTfacesLoop, hs, if_neg h, hc, Res.ok_bind]) (ih _) (Or.inl rfl)
        | throw => exact CutAt.none fun x => by simp only [readTfacesLoop, hs, if_neg h, hc, Res.throw_bind]; simp
        | ub => exact CutAt.none fun x => by simp only [readTfacesLoop, hs, if_neg h, hc, Res.ub_bind]; simp
        | diverge => exact CutAt.none fun x => by simp only [readTfacesLoop, hs, if_neg h, hc, Res.diverge_bind]; simp

theorem readVSetLoop_cut (s : VSet D) : Cut False (readVSetLoop s) := by
  intro f
  induction f generalizing s with
  | nil => exact CutAt.nil (Or.inl rfl)
  | cons l ls ih =>
    cases hs : split l with
    | nil => exact CutAt.none fun x => by simp only [readVSetLoop, hs]; simp
    | cons kw args =>
      by_cases h : kw = cs!"END"
      · exact CutAt.stop (a := s) (fun ls => by simp only [readVSetLoop, hs, if_pos h]) (Or.inl rfl)
      · cases hc : vsLine s kw (kw :: args) with
        | ok c' => exact CutAt.go (K := readVSetLoop c') (fun ls => by simp only [readVSetLoop, hs, if_neg h, hc, Res.ok_bind]) (ih _) (Or.inl rfl)
        | throw => exact CutAt.none fun x => by simp only [readVSetLoop, hs, if_neg h, hc, Res.throw_bind]; simp
        | ub => exact CutAt.none fun x => by simp only [readVSetLoop, hs, if_neg h, hc, Res.ub_bind]; simp
        | diverge => exact CutAt.none fun x => by simp only [readVSetLoop, hs, if_neg h, hc, Res.diverge_bind]; simp

theorem readTfaces_cut (ts : TSurf D) : Cut False (readTfaces ts) :=
  Cut.bind (K := fun _ => readTfacesLoop ts) (gotoKeyword_cut _) (fun _ => readTfacesLoop_cut ts) no_false

theorem readTfaces_atEnd (ts : TSurf D) : AtEnd False (readTfaces ts) := Or.inl rfl

theorem readVSetVertices_cut (s : VSet D) : Cut False (readVSetVertices s) := by
  intro f
  induction f with
  | nil => exact CutAt.nil (Or.inl rfl)
  | cons l ls ih =>
    by_cases h : [cs!"VRTX", cs!"PVRTX"].any (startsWith l) = true
    · have e : ∀ ls, readVSetVertices s (l :: ls) = readVSetLoop s (l :: ls) := fun ls => by
        simp only [readVSetVertices, gotoKeywords, if_pos h, Res.ok_bind]
      intro a rest hf
      rw [e] at hf
      obtain ⟨u, hu, hp⟩ := readVSetLoop_cut s (l :: ls) a rest hf
      refine ⟨u, hu, fun p hpf => ?_⟩
      have := hp p hpf
      cases p with
      | nil => exact this
      | cons x p =>
        obtain ⟨rfl, _⟩ := List.cons_prefix_cons.1 hpf
        rw [e]; exact this
    · exact CutAt.go (fun ls => by simp only [readVSetVertices, gotoKeywords, if_neg h]) ih (Or.inl rfl)

theorem readVSetVertices_atEnd (s : VSet D) : AtEnd False (readVSetVertices s) := Or.inl rfl

/-- What follows the `GOCAD TSurf` line. -/
def tsurfBody (f : File) : Res (TSurf D × File) :=
  readHeader f >>= fun a => readCrs a.2 >>= fun b => readPropHeader [] b.2 >>= fun c =>
    readTfaces { name := a.1, crs := b.1, props := c.1, attrs := c.1.names.map (fun _ => []) } c.2

theorem readTSurf_eq (f : File) : (readTSurf f : Res (Option (TSurf D × File))) =
    match gotoKeyword? cs!"GOCAD TSurf" f with
    | none => .ok none
    | some (_, f) => tsurfBody f >>= fun r => .ok (some r) := by
  unfold readTSurf tsurfBody
  cases gotoKeyword? cs!"GOCAD TSurf" f with
  | none => rfl
  | some r => simp only [Res.bind_assoc', Res.pure_eq]

theorem tsurfBody_cut : Cut False (tsurfBody : File → Res (TSurf D × File)) :=
  Cut.bind (K := fun a f => readCrs f >>= fun b => readPropHeader [] b.2 >>= fun c =>
      readTfaces { name := a, crs := b.1, props := c.1, attrs := c.1.names.map (fun _ => []) } c.2) readHeader_cut
    (fun a => Cut.bind (K := fun b f => readPropHeader [] f >>= fun c =>
        readTfaces { name := a, crs := b, props := c.1, attrs := c.1.names.map (fun _ => []) } c.2) readCrs_cut
      (fun b => Cut.bind (K := fun c f => readTfaces { name := a, crs := b, props := c, attrs := c.names.map (fun _ => []) } f)
        (readPropHeader_cut []) (fun _ => readTfaces_cut _) (fun _ _ => readTfaces_atEnd _))
      (fun _ _ => Or.inl rfl)) no_false

/-- What follows the `GOCAD VSet` line. -/
def vsetBody (f : File) : Res (VSet D × File) :=
  readHeader f >>= fun a => readCrs a.2 >>= fun b => readPropHeader [] b.2 >>= fun c =>
    readVSetVertices { name := a.1, crs := b.1, props := c.1, attrs := c.1.names.map (fun _ => []) } c.2

theorem readVSet_eq (f : File) : (readVSet f : Res (Option (VSet D × File))) =
    match gotoKeyword? cs!"GOCAD VSet" f with
    | none => .ok none
    | some (_, f) => vsetBody f >>= fun r => .ok (some r) := by
  unfold readVSet vsetBody
  cases gotoKeyword? cs!"GOCAD VSet" f with
  | none => rfl
  | some r => simp only [Res.bind_assoc', Res.pure_eq]

theorem vsetBody_cut : Cut False (vsetBody : File → Res (VSet D × File)) :=
  Cut.bind (K := fun a f => readCrs f >>= fun b => readPropHeader [] b.2 >>= fun c =>
      readVSetVertices { name := a, crs := b.1, props := c.1, attrs := c.1.names.map (fun _ => []) } c.2) readHeader_cut
    (fun a => Cut.bind (K := fun b f => readPropHeader [] f >>= fun c =>
        readVSetVertices { name := a, crs := b, props := c.1, attrs := c.1.names.map (fun _ => []) } c.2) readCrs_cut
      (fun b => Cut.bind (K := fun c f => readVSetVertices { name := a, crs := b, props := c, attrs := c.names.map (fun _ => []) } f)
        (readPropHeader_cut []) (fun _ => readVSetVertices_cut _) (fun _ _ => readVSetVertices_atEnd _))
      (fun _ _ => Or.inl rfl)) no_false

/-! ## The last line read -/

/-- The first token of the line is `END`. -/
def isEnd (l : Str) : Bool := (split l).head? == some cs!"END"

theorem readTfacesLoop_ends {ts ts' : TSurf D} {f rest : File} (h : readTfacesLoop ts f = .ok (ts', rest)) :
    ∃ u e, f = u ++ e :: rest ∧ isEnd e = true := by
  induction f generalizing ts with
  | nil => exact absurd h (by simp [readTfacesLoop])
  | cons l ls ih =>
    rw [readTfacesLoop] at h
    cases hs : split l with
    | nil => simp [hs] at h
    | cons kw args =>
      simp only [hs] at h
      by_cases hk : kw = cs!"END"
      · simp only [if_pos hk, Res.ok.injEq, Prod.mk.injEq] at h
        obtain ⟨_, rfl⟩ := h
        exact ⟨[], l, rfl, by simp [isEnd, hs, hk]⟩
      · rw [if_neg hk] at h
        obtain ⟨t, _, h2⟩ := Res.bind_eq_ok.1 h
        obtain ⟨u, e, rfl, he⟩ := ih h2
        exact ⟨l :: u, e, rfl, he⟩

theorem readVSetLoop_ends {s s' : VSet D} {f rest : File} (h : readVSetLoop s f = .ok (s', rest)) :
    ∃ u e, f = u ++ e :: rest ∧ isEnd e = true := by
  induction f generalizing s with
  | nil => exact absurd h (by simp [readVSetLoop])
  | cons l ls ih =>
    rw [readVSetLoop] at h
    cases hs : split l with
    | nil => simp [hs] at h
    | cons kw args =>
      simp only [hs] at h
      by_cases hk : kw = cs!"END"
      · simp only [if_pos hk, Res.ok.injEq, Prod.mk.injEq] at h
        obtain ⟨_, rfl⟩ := h
        exact ⟨[], l, rfl, by simp [isEnd, hs, hk]⟩
      · rw [if_neg hk] at h
        obtain ⟨t, _, h2⟩ := Res.bind_eq_ok.1 h
        obtain ⟨u, e, rfl, he⟩ := ih h2
        exact ⟨l :: u, e, rfl, he⟩

theorem Cut.suffix {e : Prop} {α : Type} {R : File → Res (α × File)} (h : Cut e R) {f rest : File} {a : α} (hf : R f = .ok (a, rest)) :
    ∃ u, f = u ++ rest := by
  obtain ⟨u, hu, _⟩ := h f a rest hf
  exact ⟨u, hu⟩

theorem gotoKeywords_suffix {kws : List Str} {f rest : File} {l : Str} (h : gotoKeywords kws f = .ok (l, rest)) :
    ∃ u, f = u ++ l :: rest := by
  induction f with
  | nil => exact absurd h (by simp [gotoKeywords])
  | cons x xs ih =>
    rw [gotoKeywords] at h
    split at h
    · simp only [Res.ok.injEq, Prod.mk.injEq] at h
      obtain ⟨rfl, rfl⟩ := h
      exact ⟨[], rfl⟩
    · obtain ⟨u, rfl⟩ := ih h
      exact ⟨x :: u, rfl⟩

theorem tsurfBody_ends {f rest : File} {ts : TSurf D} (h : tsurfBody f = .ok (ts, rest)) :
    ∃ u e, f = u ++ e :: rest ∧ isEnd e = true := by
  obtain ⟨⟨a, f1⟩, h1, k1⟩ := Res.bind_eq_ok.1 h
  obtain ⟨⟨b, f2⟩, h2, k2⟩ := Res.bind_eq_ok.1 k1
  obtain ⟨⟨c, f3⟩, h3, k3⟩ := Res.bind_eq_ok.1 k2
  obtain ⟨⟨d, f4⟩, h4, k4⟩ := Res.bind_eq_ok.1 k3
  obtain ⟨u1, rfl⟩ := readHeader_cut.suffix h1
  obtain ⟨u2, hu2⟩ := readCrs_cut.suffix h2
  obtain ⟨u3, hu3⟩ := (readPropHeader_cut []).suffix h3
  obtain ⟨u4, hu4⟩ := (gotoKeyword_cut _).suffix h4
  obtain ⟨u5, e, hu5, he⟩ := readTfacesLoop_ends k4
  simp only at hu2 hu3 hu4 hu5
  exact ⟨u1 ++ u2 ++ u3 ++ u4 ++ u5, e, by rw [hu2, hu3, hu4, hu5]; simp, he⟩

theorem vsetBody_ends {f rest : File} {s : VSet D} (h : vsetBody f = .ok (s, rest)) :
    ∃ u e, f = u ++ e :: rest ∧ isEnd e = true := by
  obtain ⟨⟨a, f1⟩, h1, k1⟩ := Res.bind_eq_ok.1 h
  obtain ⟨⟨b, f2⟩, h2, k2⟩ := Res.bind_eq_ok.1 k1
  obtain ⟨⟨c, f3⟩, h3, k3⟩ := Res.bind_eq_ok.1 k2
  obtain ⟨⟨d, f4⟩, h4, k4⟩ := Res.bind_eq_ok.1 k3
  obtain ⟨u1, rfl⟩ := readHeader_cut.suffix h1
  obtain ⟨u2, hu2⟩ := readCrs_cut.suffix h2
  obtain ⟨u3, hu3⟩ := (readPropHeader_cut []).suffix h3
  obtain ⟨u4, hu4⟩ := gotoKeywords_suffix h4
  obtain ⟨u5, e, hu5, he⟩ := readVSetLoop_ends k4
  simp only at hu2 hu3 hu4 hu5
  exact ⟨u1 ++ u2 ++ u3 ++ u4 ++ u5, e, by rw [hu2, hu3, hu4, hu5]; simp, he⟩

end Verif.GocadCut
