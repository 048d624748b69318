import Verif.Lemmas.Unfinished
import Verif.Props.GrdeclText

/-!
# Corner point grids and voxets whose last line is not finished
-/

set_option linter.unusedSectionVars false

namespace Verif.Props.GrdeclUnfinished

open Verif Verif.Gocad Verif.Grdecl Verif.Props.GrdeclText Verif.Props.GrdeclCells Verif.Props.GocadTruncated Res

variable {D : Type} [Num D]

/-! ## A finished last line -/

theorem pillarsEnd_nil (size n : Nat) (ps : List (Pillar D)) : Unfinished.pillarsEnd size [] n ps = .diverge := by
  induction n with
  | zero => rfl
  | succ n ih =>
    rw [Unfinished.pillarsEnd, if_neg (by decide)]
    exact ih

theorem depthsEnd_nil (size n : Nat) (ds : List D) : Unfinished.depthsEnd size [] n ds = .diverge := by
  induction n with
  | zero => rfl
  | succ n ih =>
    rw [Unfinished.depthsEnd, if_neg (by decide)]
    exact ih

theorem pillarsLoop_true (size : Nat) (f : File) : ∀ (line : Str) (ps : List (Pillar D)) (o : Option (Pt D)),
    Unfinished.pillarsLoop true size line ps o f = Grdecl.pillarsLoop size ps o f := by
  induction f with
  | nil =>
    intro line ps o
    cases o with
    | none => exact pillarsEnd_nil _ _ _
    | some t => rfl
  | cons l ls ih =>
    intro line ps o
    cases o with
    | none => rw [Unfinished.pillarsLoop, Grdecl.pillarsLoop]; simp only [ih]
    | some t => rw [Unfinished.pillarsLoop, Grdecl.pillarsLoop]; simp only [ih]

theorem depthsLoop_true (size : Nat) (f : File) : ∀ (line : Str) (ds : List D),
    Unfinished.depthsLoop true size line ds f = Grdecl.depthsLoop size ds f := by
  induction f with
  | nil => intro line ds; exact depthsEnd_nil _ _ _
  | cons l ls ih => intro line ds; rw [Unfinished.depthsLoop, Grdecl.depthsLoop]; simp only [ih]

theorem includesLoop_true (f : File) : ∀ o : Option Str, Unfinished.includesLoop true o f = Grdecl.includesLoop o.isSome f := by
  induction f with
  | nil => intro o; cases o <;> rfl
  | cons l ls ih =>
    intro o
    cases o with
    | none =>
      rw [Unfinished.includesLoop, ih]
      show _ = Grdecl.includesLoop false (l :: ls)
      rw [Grdecl.includesLoop]
      cases startsWith l cs!"INCLUDE" <;> rfl
    | some x =>
      rw [Unfinished.includesLoop, ih]
      rfl

theorem readPillars_true (nx ny : Nat) (f : File) : (Unfinished.readPillars true nx ny f : Res (List (Pillar D) × File)) = Grdecl.readPillars nx ny f := by
  unfold Unfinished.readPillars Grdecl.readPillars
  simp only [pillarsLoop_true]

theorem readDepths_true (nx ny nz : Nat) (f : File) : (Unfinished.readDepths true nx ny nz f : Res (List (Option D))) = Grdecl.readDepths nx ny nz f := by
  unfold Unfinished.readDepths Grdecl.readDepths
  simp only [depthsLoop_true]

/-- Files whose last lines are finished are those of the model without the flag. -/
theorem load_true [Add D] [Sub D] [Mul D] [Div D] [One D] {merge : List (Pt D) → List (Pt D) × List Nat} {fs : Str → Option File} {f : File} :
    Unfinished.loadGrdecl merge (fun n => (fs n).map fun g => (true, g)) true f = Grdecl.load merge fs f := by
  unfold Unfinished.loadGrdecl Grdecl.load
  congr 1
  funext r
  obtain ⟨⟨nx, ny, nz⟩, after⟩ := r
  dsimp only
  rw [includesLoop_true]
  congr 1
  funext inc
  have hi : ∀ n, Unfinished.included (fun n => (fs n).map fun g => (true, g)) n = (true, (fs n).getD []) := by
    intro n
    unfold Unfinished.included
    dsimp only
    cases fs n <;> rfl
  simp only [hi, readPillars_true, readDepths_true]
  rfl

/-! ## Files that load -/

theorem pillarsLoop_agree {eol : Bool} {size : Nat} {r : List (Pillar D) × File} (f : File) : ∀ (line : Str) (ps : List (Pillar D)) (o : Option (Pt D)),
    Grdecl.pillarsLoop size ps o f = .ok r → Unfinished.pillarsLoop eol size line ps o f = .ok r := by
  induction f with
  | nil => intro line ps o h; cases o <;> cases h
  | cons l ls ih =>
    intro line ps o h
    cases o with
    | none =>
      rw [Grdecl.pillarsLoop] at h
      rw [Unfinished.pillarsLoop]
      split at h
      case isTrue hl => rw [if_pos hl]; exact h
      case isFalse hl =>
      rw [if_neg hl]
      dsimp only at h ⊢
      split at h
      case isTrue h0 => rw [if_pos h0]; exact ih _ _ _ h
      case isFalse h0 =>
      rw [if_neg h0]
      split at h
      case isTrue h6 =>
        rw [if_pos h6]
        obtain ⟨t, h1, h2⟩ := bind_eq_ok.1 h
        obtain ⟨b, h3, h4⟩ := bind_eq_ok.1 h2
        rw [h1, ok_bind, h3, ok_bind]
        split at h4
        case isTrue hs => rw [if_pos hs]; exact ih _ _ _ h4
        case isFalse => cases h4
      case isFalse h6 =>
      rw [if_neg h6]
      split at h
      case isTrue h3 =>
        rw [if_pos h3]
        obtain ⟨t, h1, h2⟩ := bind_eq_ok.1 h
        rw [h1, ok_bind]
        exact ih _ _ _ h2
      case isFalse h3 => cases h
    | some t =>
      rw [Grdecl.pillarsLoop] at h
      rw [Unfinished.pillarsLoop]
      obtain ⟨b, h1, h2⟩ := bind_eq_ok.1 h
      rw [h1, ok_bind]
      split at h2
      case isTrue hs => rw [if_pos hs]; exact ih _ _ _ h2
      case isFalse => cases h2

theorem depthsLoop_agree {eol : Bool} {size : Nat} {r : List D × File} (f : File) : ∀ (line : Str) (ds : List D),
    Grdecl.depthsLoop size ds f = .ok r → Unfinished.depthsLoop eol size line ds f = .ok r := by
  induction f with
  | nil => intro line ds h; cases h
  | cons l ls ih =>
    intro line ds h
    rw [Grdecl.depthsLoop] at h
    rw [Unfinished.depthsLoop]
    split at h
    case isTrue hl => rw [if_pos hl]; exact h
    case isFalse hl =>
      rw [if_neg hl]
      obtain ⟨d, h1, h2⟩ := bind_eq_ok.1 h
      rw [h1, ok_bind]
      exact ih _ _ h2

theorem readPillars_agree {eol : Bool} {nx ny : Nat} {f : File} {r : List (Pillar D) × File} (h : Grdecl.readPillars nx ny f = .ok r) :
    Unfinished.readPillars eol nx ny f = .ok r := by
  unfold Grdecl.readPillars at h
  unfold Unfinished.readPillars
  obtain ⟨⟨l, g⟩, h1, h2⟩ := bind_eq_ok.1 h
  obtain ⟨q, h3, h4⟩ := bind_eq_ok.1 h2
  rw [h1, ok_bind]
  dsimp only
  rw [pillarsLoop_agree g l _ _ h3, ok_bind]
  exact h4

theorem readDepths_agree {eol : Bool} {nx ny nz : Nat} {f : File} {r : List (Option D)} (h : Grdecl.readDepths nx ny nz f = .ok r) :
    Unfinished.readDepths eol nx ny nz f = .ok r := by
  unfold Grdecl.readDepths at h
  unfold Unfinished.readDepths
  obtain ⟨⟨l, g⟩, h1, h2⟩ := bind_eq_ok.1 h
  obtain ⟨q, h3, h4⟩ := bind_eq_ok.1 h2
  rw [h1, ok_bind]
  dsimp only
  rw [depthsLoop_agree g l _ h3, ok_bind]
  exact h4

/-- The last line only matters to the inclusions when it is itself an `INCLUDE`. -/
theorem includesLoop_eol {eol : Bool} (f : File) : ∀ o : Option Str, (f = [] → o = none) → startsWith (f.getLastD []) cs!"INCLUDE" = false →
    Unfinished.includesLoop eol o f = Grdecl.includesLoop o.isSome f := by
  induction f with
  | nil => intro o h _; rw [h rfl]; rfl
  | cons l ls ih =>
    intro o _ h
    have hls : ∀ x ∈ ls.head?, startsWith (ls.getLastD []) cs!"INCLUDE" = false := by
      intro x hx
      cases ls with
      | nil => cases hx
      | cons a ls => rw [List.getLastD_cons, List.getLastD_cons] at h; rw [List.getLastD_cons]; exact h
    cases o with
    | none =>
      rw [Unfinished.includesLoop]
      show _ = Grdecl.includesLoop false (l :: ls)
      rw [Grdecl.includesLoop]
      cases ls with
      | nil =>
        have h : startsWith l cs!"INCLUDE" = false := h
        rw [h]
        rfl
      | cons a ls =>
        rw [ih _ nofun (hls a rfl)]
        cases startsWith l cs!"INCLUDE" <;> rfl
    | some x =>
      rw [Unfinished.includesLoop]
      show _ = Grdecl.includesLoop true (l :: ls)
      rw [Grdecl.includesLoop]
      cases ls with
      | nil => rfl
      | cons a ls => rw [ih _ nofun (hls a rfl)]; rfl

/-- The line feeds after the last lines of the files are there or not. -/
def SameFiles (fs : Str → Option File) (fs' : Str → Option (Bool × File)) : Prop := ∀ n, (fs' n).map Prod.snd = fs n

/-- Whether the last lines are finished makes no difference to a file that loads. -/
def FeedIrrelevant (D : Type) [Num D] [Add D] [Sub D] [Mul D] [Div D] [One D] : Prop :=
  ∀ (merge : List (Pt D) → List (Pt D) × List Nat) (fs : Str → Option File) (fs' : Str → Option (Bool × File)) (f : File) (s : Solid D),
    SameFiles fs fs' → Grdecl.load merge fs f = .ok s → ∀ eol, Unfinished.loadGrdecl merge fs' eol f = .ok s

theorem readDims_last {f after : File} {d : Nat × Nat × Nat} (h : readDims f = .ok (d, after)) : after = [] ∨ after.getLastD [] = f.getLastD [] := by
  unfold readDims at h
  obtain ⟨⟨l, g⟩, h1', h2⟩ := bind_eq_ok.1 h
  obtain ⟨u, e⟩ := readDimsLoop_suffix h2
  have h1 : gotoKeyword? cs!"SPECGRID" f = some (l, g) := by
    unfold gotoKeyword at h1'
    cases hk : gotoKeyword? cs!"SPECGRID" f with
    | none => rw [hk] at h1'; cases h1'
    | some r => rw [hk] at h1'; cases h1'; rfl
  obtain ⟨w, rfl⟩ : ∃ w, f = w ++ l :: g := by
    clear h h2 e h1'
    induction f with
    | nil => cases h1
    | cons x xs ih =>
      rw [gotoKeyword?] at h1
      split at h1
      · cases h1; exact ⟨[], rfl⟩
      · obtain ⟨w, rfl⟩ := ih h1; exact ⟨x :: w, rfl⟩
  have key : ∀ (u : File) (d : Str), after ≠ [] → (u ++ after).getLastD d = after.getLastD [] := by
    intro u
    induction u with
    | nil =>
      intro d hn
      cases after with
      | nil => exact absurd rfl hn
      | cons a g => rw [List.nil_append, List.getLastD_cons, List.getLastD_cons]
    | cons a u ih => intro d hn; rw [List.cons_append, List.getLastD_cons, ih _ hn]
  by_cases hn : after = []
  · exact Or.inl hn
  · refine Or.inr ?_
    rw [e, ← List.append_assoc, key _ _ hn]

/-- What holds of it: a file whose last line is not an `INCLUDE` loads in the same way whether or not its last line, and those of the files it
includes, are finished. The full statement is `FeedIrrelevant`. -/
theorem feed_irrelevant_partial [Add D] [Sub D] [Mul D] [Div D] [One D] {merge : List (Pt D) → List (Pt D) × List Nat} {fs : Str → Option File}
    {fs' : Str → Option (Bool × File)} {f : File} {s : Solid D} (hs : SameFiles fs fs') (hi : startsWith (f.getLastD []) cs!"INCLUDE" = false)
    (h : Grdecl.load merge fs f = .ok s) (eol : Bool) : Unfinished.loadGrdecl merge fs' eol f = .ok s := by
  unfold Grdecl.load at h
  obtain ⟨⟨⟨nx, ny, nz⟩, after⟩, h1, h⟩ := bind_eq_ok.1 h
  obtain ⟨inc, h2, h⟩ := bind_eq_ok.1 h
  obtain ⟨⟨ps, rest⟩, h3, h⟩ := bind_eq_ok.1 h
  obtain ⟨ds, h4, h⟩ := bind_eq_ok.1 h
  unfold Unfinished.loadGrdecl
  rw [h1, ok_bind]
  dsimp only
  have hin : Unfinished.includesLoop eol none after = .ok inc := by
    rw [← h2]
    rcases readDims_last h1 with rfl | e
    · rfl
    · exact includesLoop_eol after none (fun _ => rfl) (by rw [e]; exact hi)
  have hf : ∀ n, (Unfinished.included fs' n).2 = (fs n).getD [] := by
    intro n
    rw [← hs n]
    unfold Unfinished.included
    cases fs' n <;> rfl
  rw [hin, ok_bind]
  have hp : (match fileOf inc cs!"COORD" with
      | some n => do
        let (ps, _) ← Unfinished.readPillars (Unfinished.included fs' n).1 nx ny (Unfinished.included fs' n).2
        pure (ps, f)
      | none => Unfinished.readPillars eol nx ny f : Res (List (Pillar D) × File)) = .ok (ps, rest) := by
    cases hc : fileOf inc cs!"COORD" with
    | none => rw [hc] at h3; exact readPillars_agree h3
    | some n =>
      rw [hc] at h3
      dsimp only at h3 ⊢
      obtain ⟨q, h5, h6⟩ := bind_eq_ok.1 h3
      rw [hf n, readPillars_agree h5, ok_bind]
      exact h6
  have hd : (match fileOf inc cs!"ZCORN" with
      | some n => Unfinished.readDepths (Unfinished.included fs' n).1 nx ny nz (Unfinished.included fs' n).2
      | none => Unfinished.readDepths eol nx ny nz rest : Res (List (Option D))) = .ok ds := by
    cases hc : fileOf inc cs!"ZCORN" with
    | none => rw [hc] at h4; exact readDepths_agree h4
    | some n =>
      rw [hc] at h4
      dsimp only at h4 ⊢
      rw [hf n]
      exact readDepths_agree h4
  refine (congrArg (· >>= _) hp).trans ?_
  rw [ok_bind]
  dsimp only
  refine (congrArg (· >>= _) hd).trans ?_
  exact h

/-- The code does not satisfy the full statement: a last line `INCLUDE a_COORD.x` that is not finished is read again as the line after `INCLUDE`, and
the pillars are then searched in the file `NCLUD`. -/
theorem feed_relevant : ¬ FeedIrrelevant Int := by
  intro h
  have := h (fun pts => (pts, List.range pts.length)) (fun _ => none) (fun _ => none)
    ({ parts1 with depths := [cs!"0 0 0 0 9 9 9 9"] }.file ++ [cs!"INCLUDE a_COORD.x"])
    ⟨[⟨0, 1, 9⟩, ⟨1, 1, 9⟩, ⟨1, 0, 9⟩, ⟨0, 0, 9⟩, ⟨0, 1, 0⟩, ⟨1, 1, 0⟩, ⟨1, 0, 0⟩, ⟨0, 0, 0⟩], [[0, 1, 2, 3, 4, 5, 6, 7]]⟩ (fun _ => rfl) (by decide +kernel)
    false
  revert this
  decide +kernel

example : startsWith (parts1.file.getLastD []) cs!"INCLUDE" = false ∧ SameFiles (fun _ => none) (fun _ => none) := ⟨by decide +kernel, fun _ => rfl⟩

/-! ## Files that are cut within a section -/

/-- A line with a whole pillar, or with the top of one. -/
def PillarLine (D : Type) [Num D] (l : Str) : Prop :=
  Inside l ∧ ((∃ (p : Pillar D) (a b c d e f : Str), split l = [a, b, c, d, e, f] ∧ IsPt [a, b, c] p.top ∧ IsPt [d, e, f] p.bottom) ∨
    ∃ (t : Pt D) (a b c : Str), split l = [a, b, c] ∧ IsPt [a, b, c] t)

theorem pillarsEnd_ub {size : Nat} {line : Str} (h : PillarLine D line) : ∀ (n : Nat) (ps : List (Pillar D)), ps.length ≤ size → size < ps.length + n →
    Unfinished.pillarsEnd size line n ps = .ub := by
  intro n
  induction n with
  | zero => intro ps h1 h2; omega
  | succ n ih =>
    intro ps h1 h2
    rw [Unfinished.pillarsEnd, if_neg (by rw [h.1.1]; simp)]
    rcases h.2 with ⟨p, a, b, c, d, e, f, hs, ht, hb⟩ | ⟨t, a, b, c, hs, ht⟩
    · simp only [hs, List.isEmpty_cons, Bool.false_eq_true, if_false, List.length_cons, List.length_nil, Nat.reduceAdd, if_true]
      have h0 : readPt [a, b, c, d, e, f] 0 = .ok p.top := readPt_zero (IsPt.append (r := [d, e, f]) ht)
      have h3 : readPt [a, b, c, d, e, f] 3 = .ok p.bottom := readPt_ok (pre := [a, b, c]) hb
      rw [h0, ok_bind, h3, ok_bind]
      split
      · exact ih _ (by simp; omega) (by simp; omega)
      · rfl
    · simp only [hs, List.isEmpty_cons, Bool.false_eq_true, if_false, List.length_cons, List.length_nil, Nat.reduceAdd, if_true,
        Nat.reduceEqDiff]
      rw [readPt_zero ht, ok_bind]

/-- What happens at the end of a file whose last line, not finished, is in the section of the pillars: any other line is refused. -/
theorem pillarsEnd_throw {size : Nat} {line : Str} (hi : Inside line) (hne : split line ≠ []) (h : ¬ PillarLine D line) (n : Nat) (ps : List (Pillar D)) :
    Unfinished.pillarsEnd size line (n + 1) ps = .throw := by
  have bad : ∀ (ts : List Str) (i : Nat), i + 3 ≤ ts.length → (∀ p : Pt D, ¬ IsPt (ts.drop i) p) → (readPt ts i : Res (Pt D)) = .throw := by
    intro ts i hl hp
    have e : ∀ k, k < 3 → Res.index ts (i + k) = .ok (ts[i + k]!) := by
      intro k hk
      rw [Res.index_of_lt (by omega), getElem!_pos ts (i + k) (by omega)]
    unfold readPt
    have e0 := e 0 (by omega)
    rw [Nat.add_zero] at e0
    rw [e0, e 1 (by omega), e 2 (by omega)]
    simp only [ok_bind]
    unfold readDouble
    cases hx : (Num.parse (ts[i]!) : Option D) with
    | none => rfl
    | some x =>
      cases hy : (Num.parse (ts[i + 1]!) : Option D) with
      | none => rfl
      | some y =>
        cases hz : (Num.parse (ts[i + 2]!) : Option D) with
        | none => rfl
        | some z =>
          exfalso
          refine hp ⟨x, y, z⟩ ⟨ts[i]!, ts[i + 1]!, ts[i + 2]!, ts.drop (i + 3), ?_, hx, hy, hz⟩
          rw [getElem!_pos ts i (by omega), getElem!_pos ts (i + 1) (by omega), getElem!_pos ts (i + 2) (by omega),
            List.drop_eq_getElem_cons (by omega : i < ts.length), List.drop_eq_getElem_cons (by omega : i + 1 < ts.length),
            List.drop_eq_getElem_cons (by omega : i + 2 < ts.length)]
  have cut : ∀ {a b c : Str} {r : List Str} {p : Pt D}, IsPt (a :: b :: c :: r) p → IsPt [a, b, c] p := by
    rintro a b c r p ⟨a', b', c', r', e, h1, h2, h3⟩
    injection e with e1 e
    injection e with e2 e
    injection e with e3 _
    subst e1 e2 e3
    exact ⟨_, _, _, [], rfl, h1, h2, h3⟩
  rw [Unfinished.pillarsEnd, if_neg (by rw [hi.1]; simp)]
  simp only
  rw [if_neg (by rw [List.isEmpty_iff]; exact hne)]
  by_cases h6 : (split line).length = 6
  · rw [if_pos h6]
    obtain ⟨a, b, c, d, e, f, hs⟩ : ∃ a b c d e f, split line = [a, b, c, d, e, f] := by
      match split line, h6 with
      | [a, b, c, d, e, f], _ => exact ⟨a, b, c, d, e, f, rfl⟩
    rw [hs]
    by_cases ht : ∃ p : Pt D, IsPt [a, b, c, d, e, f] p
    · obtain ⟨t, ht⟩ := ht
      rw [readPt_zero ht, ok_bind, bad _ 3 (by simp)]
      · rfl
      · intro q hq
        exact h ⟨hi, Or.inl ⟨⟨t, q⟩, a, b, c, d, e, f, hs, cut ht, hq⟩⟩
    · rw [bad _ 0 (by simp) (fun p hp => ht ⟨p, hp⟩)]
      rfl
  · rw [if_neg h6]
    by_cases h3 : (split line).length = 3
    · rw [if_pos h3]
      obtain ⟨a, b, c, hs⟩ : ∃ a b c, split line = [a, b, c] := by
        match split line, h3 with
        | [a, b, c], _ => exact ⟨a, b, c, rfl⟩
      rw [hs, bad _ 0 (by simp)]
      · rfl
      · intro q hq
        exact h ⟨hi, Or.inr ⟨q, a, b, c, hs, hq⟩⟩
    · rw [if_neg h3]

theorem pillarsLoop_ub {size : Nat} {ps : List (Pillar D)} {ls : List Str} (h : PillarLines ps ls) : ∀ (line : Str) (acc : List (Pillar D)),
    acc.length ≤ size → (ls = [] → PillarLine D line) → (ls ≠ [] → split (ls.getLastD []) ≠ []) →
    Unfinished.pillarsLoop false size line acc none ls = .ub := by
  have last : ∀ (l : Str) (ls : File), (l :: ls ≠ [] → split ((l :: ls).getLastD []) ≠ []) → (ls ≠ [] → split (ls.getLastD []) ≠ []) := by
    intro l ls h hn
    have := h nofun
    rw [List.getLastD_cons] at this
    cases ls with
    | nil => exact absurd rfl hn
    | cons a ls => rw [List.getLastD_cons] at this ⊢; exact this
  induction h with
  | nil =>
    intro line acc ha hl _
    exact pillarsEnd_ub (hl rfl) _ _ ha (by omega)
  | @blank ps ls l hi hs _ ih =>
    intro line acc ha _ hn
    rw [Unfinished.pillarsLoop, if_neg (by rw [hi.1]; simp)]
    simp only [hs, List.isEmpty_nil, if_true]
    refine ih l acc ha ?_ (last _ _ hn)
    rintro rfl
    exact absurd hs (hn nofun)
  | @one ps ls l p a b c d e f hi hs ht hb _ ih =>
    intro line acc ha _ hn
    rw [Unfinished.pillarsLoop, if_neg (by rw [hi.1]; simp)]
    simp only [hs, List.isEmpty_cons, Bool.false_eq_true, if_false, List.length_cons, List.length_nil, Nat.reduceAdd, if_true]
    have h0 : readPt [a, b, c, d, e, f] 0 = .ok p.top := readPt_zero (IsPt.append (r := [d, e, f]) ht)
    have h3 : readPt [a, b, c, d, e, f] 3 = .ok p.bottom := readPt_ok (pre := [a, b, c]) hb
    rw [h0, ok_bind, h3, ok_bind]
    split
    · exact ih l _ (by simp; omega) (fun _ => ⟨hi, Or.inl ⟨p, a, b, c, d, e, f, hs, ht, hb⟩⟩) (last _ _ hn)
    · rfl
  | @two ps ls l l' p a b c hi hi' hs ht hb _ ih =>
    intro line acc ha _ hn
    rw [Unfinished.pillarsLoop, if_neg (by rw [hi.1]; simp)]
    simp only [hs, List.isEmpty_cons, Bool.false_eq_true, if_false, List.length_cons, List.length_nil, Nat.reduceAdd, if_true,
      Nat.reduceEqDiff]
    rw [readPt_zero ht, ok_bind, Unfinished.pillarsLoop, readPt_zero hb, ok_bind]
    split
    · exact ih l _ (by simp; omega) (fun _ => ⟨hi, Or.inr ⟨p.top, a, b, c, hs, ht⟩⟩) (last _ _ (last _ _ hn))
    · rfl

theorem forall₂_split {α β : Type} {R : α → β → Prop} {a b : List α} {c : List β} (h : List.Forall₂ R (a ++ b) c) :
    ∃ c1 c2, List.Forall₂ R a c1 ∧ List.Forall₂ R b c2 ∧ c = c1 ++ c2 := forall₂_append_left h

theorem depthsEnd_ub {size : Nat} {line : Str} {es : List D} (h1 : Inside line) (h2 : List.Forall₂ (fun t d => Num.parse t = some d) (split line) es)
    (h3 : es ≠ []) : ∀ (n : Nat) (ds : List D), ds.length ≤ size → size < ds.length + n → Unfinished.depthsEnd size line n ds = .ub := by
  intro n
  induction n with
  | zero => intro ds ha hb; omega
  | succ n ih =>
    intro ds ha hb
    have : 0 < es.length := List.length_pos_iff.2 h3
    rw [Unfinished.depthsEnd, if_neg (by rw [h1.1]; simp), depthTokens_ok size h2 ds ha]
    split
    case isTrue h => rw [ok_bind]; exact ih _ (by simpa using h) (by simp; omega)
    case isFalse => rfl

theorem depthsLoop_ub {size : Nat} {ls : List Str} : ∀ (ds : List D) (line : Str) (acc : List D), DepthLines ds ls →
    acc.length ≤ size → (ls = [] → Inside line ∧ ∃ es : List D, es ≠ [] ∧ List.Forall₂ (fun t d => Num.parse t = some d) (split line) es) →
    (ls ≠ [] → split (ls.getLastD []) ≠ []) → Unfinished.depthsLoop false size line acc ls = .ub := by
  induction ls with
  | nil =>
    intro ds line acc _ ha hl _
    obtain ⟨h1, es, h3, h2⟩ := hl rfl
    exact depthsEnd_ub h1 h2 h3 _ _ ha (by omega)
  | cons l ls ih =>
    intro ds line acc h ha _ hn
    obtain ⟨h1, h2⟩ := h
    rw [List.flatMap_cons] at h2
    obtain ⟨ds1, ds2, hd1, hd2, rfl⟩ := forall₂_split h2
    rw [Unfinished.depthsLoop, if_neg (by rw [(h1 l (by simp)).1]; simp), depthTokens_ok size hd1 acc ha]
    split
    case isTrue hle =>
      rw [ok_bind]
      refine ih ds2 l _ ⟨fun x hx => h1 x (by simp [hx]), hd2⟩ (by simpa using hle) ?_ ?_
      · rintro rfl
        refine ⟨h1 l (by simp), ds1, ?_, hd1⟩
        rintro rfl
        have : split l = [] := by cases h : split l with | nil => rfl | cons a r => rw [h] at hd1; cases hd1
        exact hn nofun this
      · intro hne
        have := hn nofun
        rw [List.getLastD_cons] at this
        cases ls with
        | nil => exact absurd rfl hne
        | cons a ls => rw [List.getLastD_cons] at this ⊢; exact this
    case isFalse => rfl

theorem includesLoop_none {eol : Bool} {f : File} (h : ∀ l ∈ f, startsWith l cs!"INCLUDE" = false) : Unfinished.includesLoop eol none f = .ok [] := by
  induction f with
  | nil => rfl
  | cons l ls ih =>
    rw [Unfinished.includesLoop, h l (by simp)]
    exact ih fun x hx => h x (by simp [hx])

theorem load_start [Add D] [Sub D] [Mul D] [Div D] [One D] {merge : List (Pt D) → List (Pt D) × List Nat} {fs : Str → Option (Bool × File)} {eol : Bool} {head rest : File}
    {nx ny nz : Nat} (hd : ∃ after, readDims head = .ok ((nx, ny, nz), after)) (hi : ∀ l ∈ head ++ rest, startsWith l cs!"INCLUDE" = false) :
    (Unfinished.loadGrdecl merge fs eol (head ++ rest) : Res (Solid D)) = (do
      let (ps, rest) ← Unfinished.readPillars eol nx ny (head ++ rest)
      let ds ← Unfinished.readDepths eol nx ny nz rest
      createCells merge nx ny nz ps ds) := by
  obtain ⟨after, hd⟩ := hd
  have hd' := readDims_append hd rest
  unfold Unfinished.loadGrdecl
  rw [hd', ok_bind]
  dsimp only
  have hs : ∀ x ∈ after ++ rest, x ∈ head ++ rest := by
    unfold readDims at hd'
    obtain ⟨⟨l, g⟩, h1, h2⟩ := bind_eq_ok.1 hd'
    obtain ⟨u, e⟩ := readDimsLoop_suffix h2
    intro x hx
    have hx : x ∈ l :: g := by rw [e]; exact List.mem_append_right _ hx
    clear h2 e hd' hd hi
    generalize head ++ rest = f at *
    unfold gotoKeyword at h1
    induction f with
    | nil => cases h1
    | cons y ys ih =>
      rw [gotoKeyword?] at h1
      split at h1
      · cases h1; exact hx
      · exact List.mem_cons_of_mem _ (ih h1)
  rw [includesLoop_none fun l hl => hi l (hs l hl), ok_bind]
  rfl

/-- A file cut after a line of the pillars that is not finished writes past the end of the pillars (or reads words that the line does not have):
undefined behaviour. -/
theorem pillars_cut [Add D] [Sub D] [Mul D] [Div D] [One D] {merge : List (Pt D) → List (Pt D) × List Nat} {fs : Str → Option (Bool × File)} {head : File} {coord : Str}
    {lines : List Str} {nx ny nz : Nat} {ps : List (Pillar D)} (hd : ∃ after, readDims head = .ok ((nx, ny, nz), after))
    (hi : ∀ l ∈ head ++ coord :: lines, startsWith l cs!"INCLUDE" = false) (hnc : ∀ l ∈ head, startsWith l cs!"COORD" = false)
    (hc : startsWith coord cs!"COORD" = true) (hp : PillarLines ps lines) (hl : lines ≠ []) (hb : split (lines.getLastD []) ≠ []) :
    (Unfinished.loadGrdecl merge fs false (head ++ coord :: lines) : Res (Solid D)) = .ub := by
  rw [load_start hd hi]
  unfold Unfinished.readPillars gotoKeyword
  rw [gotoKeyword?_skip' hnc hc]
  simp only [Res.ofParse_some, Res.ok_bind]
  rw [pillarsLoop_ub hp coord [] (Nat.zero_le _) (fun h => absurd h hl) fun _ => hb]
  rfl

/-- The same in the depths. -/
theorem depths_cut [Add D] [Sub D] [Mul D] [Div D] [One D] {merge : List (Pt D) → List (Pt D) × List Nat} {fs : Str → Option (Bool × File)} {p : Parts} {nx ny nz : Nat}
    {ps : List (Pillar D)} {ds : List D} (h : p.Good nx ny nz ps ds) (hps : ps.length ≤ (nx + 1) * (ny + 1) % W)
    (hl : p.depths ≠ []) (hb : split (p.depths.getLastD []) ≠ []) :
    (Unfinished.loadGrdecl merge fs false (p.head ++ p.coord :: (p.pillars ++ p.end1 :: (p.mid ++ p.zcorn :: p.depths))) : Res (Solid D)) = .ub := by
  rw [load_start h.dims]
  · have hg : Grdecl.readPillars nx ny (p.head ++ p.coord :: (p.pillars ++ p.end1 :: (p.mid ++ p.zcorn :: p.depths))) =
        .ok (ps ++ List.replicate ((nx + 1) * (ny + 1) % W - ps.length) Pillar.zero, p.mid ++ p.zcorn :: p.depths) := by
      unfold readPillars gotoKeyword
      rw [gotoKeyword?_skip' h.noCoord h.coord]
      simp only [Res.ofParse_some, Res.ok_bind]
      rw [pillarsLoop_lines _ h.pillars [] (Nat.zero_le _), if_pos (by simpa using hps), pillarsLoop_end _ _ h.end1]
      rfl
    rw [readPillars_agree hg, ok_bind]
    dsimp only
    unfold Unfinished.readDepths gotoKeyword
    rw [gotoKeyword?_skip' h.noZcorn h.zcorn]
    simp only [Res.ofParse_some, Res.ok_bind]
    rw [depthsLoop_ub ds p.zcorn [] h.depths (Nat.zero_le _) (fun h => absurd h hl) fun _ => hb]
    rfl
  · intro l hl
    apply h.noInclude l
    simp only [Parts.file, List.mem_append, List.mem_cons] at hl ⊢
    tauto

example : parts1.depths ≠ [] ∧ split (parts1.depths.getLastD []) ≠ [] ∧ parts1.pillars ≠ [] ∧ split (parts1.pillars.getLastD []) ≠ [] ∧
    pillars1.length ≤ (1 + 1) * (1 + 1) % W := by decide +kernel

/-- A last line of spaces, without line feed, is read for ever, as an empty one. -/
example : (Unfinished.loadGrdecl (fun pts => (pts, List.range pts.length)) (fun _ => none) false
    (parts1.head ++ parts1.coord :: (parts1.pillars ++ [cs!"  "])) : Res (Solid Int)) = .diverge := by decide +kernel

/-! ## Data files of voxets -/

/-- Data files with a finished last line are those of the model without the flag. -/
theorem readData_true {size : Voxet.Ijk} {f : File} : (Unfinished.readData true size f : Res (List (Str × List D))) = Voxet.readData size f := rfl

/-- With two lines or more, the line feed after the last one makes no difference. -/
theorem readData_feed {eol : Bool} {size : Voxet.Ijk} {f : File} (h : 2 ≤ f.length) :
    (Unfinished.readData eol size f : Res (List (Str × List D))) = Voxet.readData size f := by
  match f, h with
  | _ :: _ :: _, _ => rfl

/-- A data file with fewer than two lines is refused when its line is finished; without the line feed, the line of the comment is taken for that of
the names and the voxet has properties without values. -/
theorem one_line {size : Voxet.Ijk} {l : Str} : (Voxet.readData size [l] : Res (List (Str × List D))) = .throw ∧
    (Unfinished.readData false size [l] : Res (List (Str × List D))) =
      if 4 ≤ (split l).length then .ok (((split l).drop 4).foldl (Voxet.addCol (Voxet.nbCells size)) []) else .throw := by
  refine ⟨rfl, ?_⟩
  unfold Unfinished.readData
  show (Res.check (decide (4 ≤ (split l).length)) >>= _) = _
  by_cases h : 4 ≤ (split l).length
  · rw [if_pos h, decide_eq_true h]; rfl
  · rw [if_neg h, decide_eq_false h]; rfl

/-- A file cut after its first line. -/
example : (Unfinished.readData false ⟨1, 1, 1⟩ [cs!"*volume filename: /home/me/model.vo"] : Res (List (Str × List Int))) = .throw ∧
    (Unfinished.readData false ⟨1, 1, 1⟩ [cs!"*volume filename: my model of the sea"] : Res (List (Str × List Int))) =
      .ok [(cs!"of", [0]), (cs!"the", [0]), (cs!"sea", [0])] := by decide +kernel

end Verif.Props.GrdeclUnfinished
