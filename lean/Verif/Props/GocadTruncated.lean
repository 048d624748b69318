import Verif.Lemmas.GocadCut
import Verif.Props.GocadBody

/-!
# Truncated files (C12)
-/

namespace Verif.Props.GocadTruncated

open Verif Verif.Gocad Verif.GocadMesh Verif.GocadCut Verif.GocadBody Verif.Props.GocadBody

variable {D : Type} [Num D]

/-- Reading the lines one by one, is there an object that was opened by a line starting with `kw` and not yet closed by an `END`
line?  (`st`: the answer before the first line.) -/
def inside (kw : Str) : Bool → File → Bool
  | st, [] => st
  | st, l :: ls => inside kw (if isEnd l then false else if startsWith l kw then true else st) ls

theorem inside_append (kw : Str) (st : Bool) (a b : File) : inside kw st (a ++ b) = inside kw (inside kw st a) b := by
  induction a generalizing st with
  | nil => rfl
  | cons l ls ih => exact ih _

theorem inside_no_kw {kw : Str} {p : File} (h : ∀ l ∈ p, startsWith l kw = false) : inside kw false p = false := by
  induction p with
  | nil => rfl
  | cons l ls ih =>
    rw [inside, h l (by simp)]
    have := ih fun l hl => h l (by simp [hl])
    by_cases he : isEnd l = true <;> simp [he, this]

theorem inside_ends {kw : Str} {st : Bool} {u : File} {e : Str} (he : isEnd e = true) : inside kw st (u ++ [e]) = false := by
  rw [inside_append, inside, if_pos he]; rfl

theorem gotoKeyword?_none {kw : Str} {f : File} (h : gotoKeyword? kw f = none) : ∀ l ∈ f, startsWith l kw = false := by
  induction f with
  | nil => simp
  | cons l ls ih =>
    rw [gotoKeyword?] at h
    split at h
    · exact absurd h (by simp)
    · rename_i hl
      intro x hx
      rcases List.mem_cons.1 hx with rfl | hx
      · simpa using hl
      · exact ih h x hx

theorem gotoKeyword?_some {kw : Str} {f g : File} {l : Str} (h : gotoKeyword? kw f = some (l, g)) :
    ∃ pre, f = pre ++ l :: g ∧ (∀ x ∈ pre, startsWith x kw = false) ∧ startsWith l kw = true := by
  induction f with
  | nil => exact absurd h (by simp [gotoKeyword?])
  | cons x xs ih =>
    rw [gotoKeyword?] at h
    split at h
    · rename_i hl
      simp only [Option.some.injEq, Prod.mk.injEq] at h
      obtain ⟨rfl, rfl⟩ := h
      exact ⟨[], rfl, by simp, hl⟩
    · rename_i hl
      obtain ⟨pre, rfl, h1, h2⟩ := ih h
      refine ⟨x :: pre, rfl, ?_, h2⟩
      intro y hy
      rcases List.mem_cons.1 hy with rfl | hy
      · simpa using hl
      · exact h1 y hy

theorem gotoKeyword?_skip' {kw : Str} {pre : File} (h : ∀ x ∈ pre, startsWith x kw = false) {l : Str} (hl : startsWith l kw = true)
    (g : File) : gotoKeyword? kw (pre ++ l :: g) = some (l, g) := by
  induction pre with
  | nil => simp [gotoKeyword?, hl]
  | cons x xs ih =>
    rw [List.cons_append, gotoKeyword?, h x (by simp)]
    exact ih fun y hy => h y (by simp [hy])

/-- Where a prefix of `pre ++ l :: g` ends. -/
theorem prefix_cases {α : Type} {p pre g : List α} {l : α} (h : p <+: pre ++ l :: g) :
    p <+: pre ∨ ∃ p', p = pre ++ l :: p' ∧ p' <+: g := by
  induction pre generalizing p with
  | nil =>
    cases p with
    | nil => exact Or.inl List.prefix_rfl
    | cons x p =>
      obtain ⟨rfl, hp⟩ := List.cons_prefix_cons.1 h
      exact Or.inr ⟨p, rfl, hp⟩
  | cons y pre ih =>
    cases p with
    | nil => exact Or.inl (List.nil_prefix)
    | cons x p =>
      obtain ⟨rfl, hp⟩ := List.cons_prefix_cons.1 h
      rcases ih hp with h | ⟨p', rfl, hp'⟩
      · exact Or.inl (List.cons_prefix_cons.2 ⟨rfl, h⟩)
      · exact Or.inr ⟨p', rfl, hp'⟩

/-- One object: a file that stops inside it makes the reader of the object throw; one that stops later gives the same object. -/
theorem object_cut {α : Type} {kw : Str} {B : File → Res (α × File)} (hB : Cut False B)
    (hE : ∀ f a rest, B f = .ok (a, rest) → ∃ u e, f = u ++ e :: rest ∧ isEnd e = true)
    {R : File → Res (Option (α × File))}
    (hR : ∀ f, R f = match gotoKeyword? kw f with | none => .ok none | some (_, g) => B g >>= fun r => .ok (some r))
    {f p : File} (hp : p <+: f) (hin : inside kw false p = true) {o : Option (α × File)} (ho : R f = .ok o) :
    ∃ a rest, o = some (a, rest) ∧ (R p = .throw ∨ ∃ q, R p = .ok (some (a, q)) ∧ q <+: rest ∧ q.length < p.length ∧
      inside kw false q = true) := by
  rw [hR] at ho
  cases hg : gotoKeyword? kw f with
  | none =>
    have hno := gotoKeyword?_none hg
    obtain ⟨t, rfl⟩ := hp
    rw [inside_no_kw fun l hl => hno l (by simp [hl])] at hin
    exact absurd hin (by simp)
  | some lg =>
    obtain ⟨l, g⟩ := lg
    simp only [hg] at ho
    obtain ⟨⟨a, rest⟩, hb, ho⟩ := Res.bind_eq_ok.1 ho
    simp only [Res.ok.injEq] at ho
    refine ⟨a, rest, ho.symm, ?_⟩
    obtain ⟨pre, rfl, hpre, hl⟩ := gotoKeyword?_some hg
    rcases prefix_cases hp with h | ⟨p', rfl, hp'⟩
    · obtain ⟨t, rfl⟩ := h
      rw [inside_no_kw fun l hl => hpre l (by simp [hl])] at hin
      exact absurd hin (by simp)
    · obtain ⟨u, hu, hcut⟩ := hB g a rest hb
      obtain ⟨u', e, hu', he⟩ := hE g a rest hb
      have hue : u = u' ++ [e] := by
        apply List.append_cancel_right (bs := rest)
        rw [← hu, hu']; simp
      have hRp : ∀ g', R (pre ++ l :: g') = (B g' >>= fun r => .ok (some r)) := fun g' => by
        rw [hR, gotoKeyword?_skip' hpre hl]
      rw [hRp]
      rcases hcut p' hp' with ⟨_, h | ⟨h, _⟩⟩ | ⟨q, rfl, hq⟩
      · exact Or.inl (by rw [h]; rfl)
      · exact h.elim
      · refine Or.inr ⟨q, by rw [hq]; rfl, ?_, by simp; omega, ?_⟩
        · rw [hu] at hp'
          obtain ⟨t, ht⟩ := hp'
          rw [List.append_assoc] at ht
          exact ⟨t, List.append_cancel_left ht⟩
        · rw [hue] at hin
          have e1 : pre ++ l :: (u' ++ [e] ++ q) = (pre ++ l :: u') ++ [e] ++ q := by simp
          rw [e1, inside_append, inside_ends he] at hin
          exact hin

theorem loop_truncated (n n' : Nat) (m : Loaded Tri D) (f p : File) (hp : p <+: f) (hin : inside cs!"GOCAD TSurf" false p = true)
    {l : Loaded Tri D} (h : loadTSLoop n m f = .ok l) (hn : p.length < n') : loadTSLoop n' m p = .throw := by
  induction n generalizing n' m f p with
  | zero => exact absurd h (by simp [loadTSLoop])
  | succ n ih =>
    obtain ⟨n', rfl⟩ : ∃ k, n' = k + 1 := ⟨n' - 1, by omega⟩
    rw [loadTSLoop] at h
    obtain ⟨o, ho, h⟩ := Res.bind_eq_ok.1 h
    obtain ⟨a, rest, rfl, hthrow | ⟨q, hq, hqr, hlen, hinq⟩⟩ :=
      object_cut tsurfBody_cut (fun _ _ _ h => tsurfBody_ends h) readTSurf_eq hp hin ho
    · rw [loadTSLoop, hthrow, Res.throw_bind]
    · simp only at h
      obtain ⟨m', hm', h⟩ := Res.bind_eq_ok.1 h
      rw [loadTSLoop, hq, Res.ok_bind]
      simp only [hm', Res.ok_bind]
      exact ih n' m' rest q hqr hinq h (by omega)

/-- **C12 for TSurf.** When a `.ts` file loads and is cut after any of its lines so that it stops inside an object (an object is
opened and its `END` line is missing), loading what is left raises an exception. -/
theorem truncated_ts {f p : File} {l : Loaded Tri D} (h : loadTS f = .ok l) (hp : p <+: f) (hin : inside cs!"GOCAD TSurf" false p = true) :
    (loadTS p : Res (Loaded Tri D)) = .throw :=
  loop_truncated _ _ _ _ _ hp hin h (Nat.lt_succ_self _)

theorem loop_truncated_vs (n n' : Nat) (m : Loaded Empty D) (f p : File) (hp : p <+: f) (hin : inside cs!"GOCAD VSet" false p = true)
    {l : Loaded Empty D} (h : loadVSLoop n m f = .ok l) (hn : p.length < n') : loadVSLoop n' m p = .throw := by
  induction n generalizing n' m f p with
  | zero => exact absurd h (by simp [loadVSLoop])
  | succ n ih =>
    obtain ⟨n', rfl⟩ : ∃ k, n' = k + 1 := ⟨n' - 1, by omega⟩
    rw [loadVSLoop] at h
    obtain ⟨o, ho, h⟩ := Res.bind_eq_ok.1 h
    obtain ⟨a, rest, rfl, hthrow | ⟨q, hq, hqr, hlen, hinq⟩⟩ :=
      object_cut vsetBody_cut (fun _ _ _ h => vsetBody_ends h) readVSet_eq hp hin ho
    · rw [loadVSLoop, hthrow, Res.throw_bind]
    · simp only at h
      obtain ⟨m', hm', h⟩ := Res.bind_eq_ok.1 h
      rw [loadVSLoop, hq, Res.ok_bind]
      simp only [hm', Res.ok_bind]
      exact ih n' m' rest q hqr hinq h (by omega)

/-- **C12 for VSet.** -/
theorem truncated_vs {f p : File} {l : Loaded Empty D} (h : loadVS f = .ok l) (hp : p <+: f) (hin : inside cs!"GOCAD VSet" false p = true) :
    (loadVS p : Res (Loaded Empty D)) = .throw :=
  loop_truncated_vs _ _ _ _ _ hp hin h (Nat.lt_succ_self _)

/-- A file with two objects, cut inside the second one. -/
example : let a := fileTS true 1 none [cs!"p"] (.vrtx ⟨0, 0, 0⟩ [4] :: sampleRecs)
    let b := fileTS true 1 none [] [.vrtx (⟨0, 0, 0⟩ : Pt Int) []]
    loadTS (a ++ b) ≠ (.throw : Res (Loaded Tri Int)) ∧ loadTS (a ++ b) ≠ (.ub : Res (Loaded Tri Int)) ∧
      inside cs!"GOCAD TSurf" false (a ++ b.take 5) = true ∧ inside cs!"GOCAD TSurf" false a = false := by decide +kernel

/-! ## PLine: the end of the file is accepted -/

/-- C12 for `.pl` files. -/
def TruncatedReported : Prop :=
  ∀ (f p : File) (l : Loaded Edge Int), loadPL f = .ok l → p <+: f → inside cs!"GOCAD PLine" false p = true → (loadPL p : Res (Loaded Edge Int)) = .throw

/-- **C12 fails for PLine**, at every point of the body: a file cut after any record (here written `rs`, followed in the whole file by
`rs'`) loads as if the rest had never existed, provided the segments before the cut use vertices before the cut. -/
theorem truncated_pl_accepted [LawfulNum D] {z : Bool} {base : Nat} {name : Option Str} (hname : ∀ n, name = some n → GoodObjectName n)
    (p : Pt D) (rs : List (ERec D)) (hf : FitsE base (.vrtx p :: rs)) :
    (loadPL (filePL z base name (.vrtx p :: rs) .eof) : Res (Loaded Edge D)) =
      loadPL (filePL z base name (.vrtx p :: rs) (.theEnd [])) := by
  rw [load_filePL hname p rs hf _ rfl, load_filePL hname p rs hf _ rfl]

/-- A curve with three vertices and two segments. -/
def curveFile : File := filePL true 1 none ([.vrtx ⟨0, 0, 0⟩, .vrtx ⟨1, 0, 0⟩, .seg 0 1, .vrtx ⟨2, 0, 0⟩, .seg 1 2] : List (ERec Int)) (.theEnd [])

/-- The whole file has two segments; cut after the first one it loads, silently, with one. -/
theorem truncated_pl_silent :
    (loadPL curveFile : Res (Loaded Edge Int)) = .ok { points := [⟨0, 0, 0⟩, ⟨1, 0, 0⟩, ⟨2, 0, 0⟩], cells := [(0, 1), (1, 2)] } ∧
    (loadPL (curveFile.take 15) : Res (Loaded Edge Int)) = .ok { points := [⟨0, 0, 0⟩, ⟨1, 0, 0⟩], cells := [(0, 1)] } := by
  decide +kernel

theorem truncated_pl_not_reported : ¬ TruncatedReported := by
  intro h
  have := h curveFile (curveFile.take 15) _ truncated_pl_silent.1 (List.take_prefix _ _) (by decide +kernel)
  rw [truncated_pl_silent.2] at this
  exact absurd this (by simp)

/-- What follows the `GOCAD PLine` line. -/
def ecurveBody (f : File) : Res (ECurve D × File) :=
  readHeader f >>= fun a => readCrs a.2 >>= fun b => readIlines { name := a.1, crs := b.1 } b.2

theorem readECurve_eq (f : File) : (readECurve f : Res (Option (ECurve D × File))) =
    match gotoKeyword? cs!"GOCAD PLine" f with
    | none => .ok none
    | some (_, f) => ecurveBody f >>= fun r => .ok (some r) := by
  unfold readECurve ecurveBody
  cases gotoKeyword? cs!"GOCAD PLine" f with
  | none => rfl
  | some r => simp only [Res.bind_assoc', Res.pure_eq]

theorem gotoKeyword?_no_kw {kw : Str} {f : File} (h : ∀ l ∈ f, startsWith l kw = false) : gotoKeyword? kw f = none := by
  induction f with
  | nil => rfl
  | cons l ls ih => rw [gotoKeyword?, h l (by simp)]; exact ih fun x hx => h x (by simp [hx])

/-- **C12 for PLine, partial.** The part that holds: a `.pl` file whose first object is cut before its `ILINE` line raises an
exception.  Missing: a cut after the `ILINE` line, for which the property is false (`truncated_pl_not_reported`). -/
theorem truncated_pl_partial {pre : File} {l : Str} {h g : File} {o : Loaded Edge D} (hpre : ∀ x ∈ pre, startsWith x cs!"GOCAD PLine" = false)
    (hl : startsWith l cs!"GOCAD PLine" = true) (hok : loadPL (pre ++ l :: (h ++ g)) = .ok o)
    (hh : ∀ x ∈ h, startsWith x cs!"ILINE" = false) :
    (loadPL (pre ++ l :: h) : Res (Loaded Edge D)) = .throw := by
  have hR : ∀ g', (readECurve (pre ++ l :: g') : Res (Option (ECurve D × File))) = (ecurveBody g' >>= fun r => .ok (some r)) := fun g' => by
    rw [readECurve_eq, gotoKeyword?_skip' hpre hl]
  unfold loadPL at hok ⊢
  obtain ⟨k, hk⟩ : ∃ k, (pre ++ l :: (h ++ g)).length + 1 = k + 1 := ⟨_, rfl⟩
  rw [hk, loadPLLoop, hR] at hok
  obtain ⟨_, hok, _⟩ := Res.bind_eq_ok.1 hok
  obtain ⟨⟨ec, rest⟩, hb, _⟩ := Res.bind_eq_ok.1 hok
  rw [loadPLLoop, hR]
  suffices hs : ecurveBody h = (.throw : Res (ECurve D × File)) by rw [hs]; rfl
  have hno : ∀ s : File, (∀ x ∈ s, x ∈ h) → ∀ ec : ECurve D, readIlines ec s = .throw := by
    intro s hs ec
    unfold readIlines gotoKeyword
    rw [gotoKeyword?_no_kw fun x hx => hh x (hs x hx)]
    rfl
  unfold ecurveBody at hb ⊢
  obtain ⟨⟨a, f1⟩, h1, k1⟩ := Res.bind_eq_ok.1 hb
  obtain ⟨⟨b, f2⟩, h2, k2⟩ := Res.bind_eq_ok.1 k1
  obtain ⟨u1, hu1, hc1⟩ := readHeader_cut _ _ _ h1
  rcases hc1 h (List.prefix_append _ _) with ⟨_, ht | ⟨e, _⟩⟩ | ⟨q, rfl, hq⟩
  · rw [ht]; rfl
  · exact e.elim
  · rw [hq, Res.ok_bind]
    have hqf : q <+: f1 := by
      rw [List.append_assoc] at hu1
      exact ⟨g, List.append_cancel_left hu1⟩
    obtain ⟨u2, _, hc2⟩ := readCrs_cut _ _ _ h2
    rcases hc2 q hqf with ⟨_, ht | ⟨_, c', hc'⟩⟩ | ⟨q', rfl, hq'⟩
    · simp only [ht, Res.throw_bind]
    · simp only [hc', Res.ok_bind]
      exact hno [] (by simp) _
    · simp only [hq', Res.ok_bind]
      exact hno q' (by simp_all) _

example : (loadPL (curveFile.take 11) : Res (Loaded Edge Int)) = .throw ∧ ∀ x ∈ (curveFile.take 11).tail, startsWith x cs!"ILINE" = false := by
  decide +kernel

/-! ## A cut in the middle of a line -/

/-- Cutting inside a line may also leave a line with missing tokens, which are read without a check: undefined behaviour, not an
exception.  Here the last line `VRTX 1 0 0 5` is cut to `VRTX 1 0`. -/
theorem midline_cut_is_ub :
    (loadTS [cs!"GOCAD TSurf 1", cs!"HEADER {", cs!"}", cs!"TFACE", cs!"VRTX 1 0"] : Res (Loaded Tri Int)) = .ub := by
  decide +kernel

end Verif.Props.GocadTruncated
