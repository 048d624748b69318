import Verif.Lemmas.Unfinished
import Verif.Lemmas.GocadBuild
import Verif.Lemmas.GocadCut

/-!
# Reading LightSolid files ends
-/

set_option linter.unusedSectionVars false

namespace Verif.LsoEnds

open Verif Verif.Gocad Verif.Lso Verif.GocadMesh Res

variable {D : Type} [Num D]

theorem readCell_ne (n : Nat) (ts : List Str) : readCell n ts ≠ .diverge :=
  mapM'_ne_diverge fun _ => bind_ne_diverge (index_ne_diverge _ _) fun _ => bind_ne_diverge (readIndex_ne_diverge _) fun _ => by simp

theorem readVertex_ne (z : Bool) (e : List Nat) (s : Solid D) (l : Str) : readVertex z e s l ≠ .diverge := by
  unfold readVertex
  dsimp only
  split
  · refine bind_ne_diverge (index_ne_diverge _ _) fun _ => bind_ne_diverge (readIndex_ne_diverge _) fun _ =>
      bind_ne_diverge (index_ne_diverge _ _) fun _ => bind_ne_diverge (readProperties_ne_diverge _ _ _) fun _ => ?_
    split <;> simp
  · exact bind_ne_diverge (readPoint_ne_diverge _ _) fun _ => bind_ne_diverge (readProperties_ne_diverge _ _ _) fun _ => by simp

theorem readTetra_ne (e : List Nat) (s : Solid D) (l l2 : Str) : readTetra e s l l2 ≠ .diverge := by
  refine bind_ne_diverge (readCell_ne _ _) fun _ => bind_ne_diverge ?_ fun _ => bind_ne_diverge (readProperties_ne_diverge _ _ _) fun _ =>
    bind_ne_diverge (index_ne_diverge _ _) fun _ => by simp
  unfold createCell
  split <;> simp

theorem facetsFrom_ne (s : Solid D) (t : List Nat) : facetsFrom s t ≠ .diverge := by
  have hc : ∀ u, copies s u ≠ .diverge := by intro u; unfold copies; split <;> simp
  exact bind_ne_diverge (index_ne_diverge _ _) fun _ => bind_ne_diverge (index_ne_diverge _ _) fun _ => bind_ne_diverge (index_ne_diverge _ _) fun _ =>
    bind_ne_diverge (hc _) fun _ => bind_ne_diverge (hc _) fun _ => bind_ne_diverge (hc _) fun _ => by simp

theorem readTriangle_ne (s : Solid D) (st : RState) (l : Str) : readTriangle s st l ≠ .diverge := by
  refine bind_ne_diverge (readCell_ne _ _) fun _ => bind_ne_diverge (mapM'_ne_diverge (index_ne_diverge _)) fun _ =>
    bind_ne_diverge (facetsFrom_ne _ _) fun _ => ?_
  split <;> simp

theorem surfaceLine_ne (st : RState) (l : Str) : surfaceLine st l ≠ .diverge := by
  unfold surfaceLine
  split
  · exact bind_ne_diverge (index_ne_diverge _ _) fun _ => by simp
  · simp

theorem faceLine_ne (st : RState) (l : Str) : faceLine st l ≠ .diverge := by
  unfold faceLine
  split
  · simp
  · exact surfaceLine_ne _ _

theorem surfacesStep_ne (s : Solid D) (st : RState) (m : Mode) (l : Str) : surfacesStep s (st, m) l ≠ .diverge := by
  cases m with
  | faces => exact faceLine_ne _ _
  | key => simp [surfacesStep]
  | triangles =>
    rw [surfacesStep]
    split
    · exact bind_ne_diverge (readTriangle_ne _ _ _) fun _ => by simp
    · exact faceLine_ne _ _

theorem readBlock_ne (h : Headers D) (s : Solid D) (st : RState) (l : Str) : readBlock h s st l ≠ .diverge := by
  refine bind_ne_diverge (index_ne_diverge _ _) fun _ => ?_
  exact bind_ne_diverge (createAttributes_ne_diverge _ _ _ _ _ _ _) fun _ => bind_ne_diverge (createAttributes_ne_diverge _ _ _ _ _ _ _) fun _ => by simp

theorem verticesLoop_ne (eol z : Bool) (e : List Nat) (f : File) : ∀ (line : Str) (s : Solid D),
    Unfinished.verticesLoop eol z e line s f ≠ .diverge := by
  induction f with
  | nil => intro line s; simp [Unfinished.verticesLoop]
  | cons l ls ih =>
    intro line s
    rw [Unfinished.verticesLoop]
    split
    · exact bind_ne_diverge (readVertex_ne _ _ _ _) fun _ => ih _ _
    · simp

theorem readTetras_ne (eol : Bool) (e : List Nat) : ∀ (f : File) (s : Solid D) (l : Str), Unfinished.readTetras eol e s l f ≠ .diverge
  | [], s, l => by rw [Unfinished.readTetras]; exact bind_ne_diverge (readTetra_ne _ _ _ _) fun _ => by simp
  | [l2], s, l => by rw [Unfinished.readTetras]; exact bind_ne_diverge (readTetra_ne _ _ _ _) fun _ => by simp
  | l2 :: l3 :: ls, s, l => by
    rw [Unfinished.readTetras]
    refine bind_ne_diverge (readTetra_ne _ _ _ _) fun s' => ?_
    split
    · exact readTetras_ne eol e ls s' l3
    · simp

theorem gotoKeyword_ne (kw : Str) (f : File) : gotoKeyword kw f ≠ .diverge := by
  exact ofParse_ne_diverge _

theorem skipSection_ne (eol : Bool) (k l : Str) (f : File) : Unfinished.skipSection eol k l f ≠ .diverge := by
  unfold Unfinished.skipSection
  split
  · exact bind_ne_diverge (gotoKeyword_ne _ _) fun _ => by simp
  · simp

theorem loadFront_ne (eol : Bool) (f : File) : Unfinished.loadFront (D := D) eol f ≠ .diverge := by
  refine bind_ne_diverge (gotoKeyword_ne _ _) fun r1 => ?_
  refine bind_ne_diverge (readHeader_fwd _).1 fun r2 => ?_
  refine bind_ne_diverge (readCrs_fwd _).1 fun r3 => ?_
  refine bind_ne_diverge (readPropHeader_fwd _ _).1 fun r4 => ?_
  refine bind_ne_diverge (readPropHeader_fwd _ _).1 fun r5 => ?_
  refine bind_ne_diverge ?_ fun r6 => ?_
  · exact bind_ne_diverge (gotoKeywords_ne_diverge _ _) fun r => bind_ne_diverge (readVertex_ne _ _ _ _) fun _ => verticesLoop_ne _ _ _ _ _ _
  refine bind_ne_diverge (skipSection_ne _ _ _ _) fun r7 => ?_
  refine bind_ne_diverge (readTetras_ne _ _ _ _ _) fun r8 => ?_
  exact bind_ne_diverge (skipSection_ne _ _ _ _) fun _ => by simp

/-! ## The last line -/

/-- The string and the rest of the file, when `last` is the last line of the file: nothing is left and the string does not start with `MODEL`, or the
last of the lines that the loader can see is `last`. -/
def Left (last l : Str) (f : File) : Prop := f = [] ∧ startsWith l cs!"MODEL" = false ∨ f.getLastD l = last

theorem verticesLoop_left {z : Bool} {e : List Nat} {last : Str} {s' : Solid D} {l' : Str} {f' : File} (f : File) : ∀ (line : Str) (s : Solid D),
    f.getLastD line = last → Unfinished.verticesLoop false z e line s f = .ok (s', l', f') → f'.getLastD l' = last := by
  induction f with
  | nil => intro line s hl h; cases h; exact hl
  | cons l ls ih =>
    intro line s hl h
    rw [List.getLastD_cons] at hl
    rw [Unfinished.verticesLoop] at h
    split at h
    · obtain ⟨s1, _, h2⟩ := bind_eq_ok.1 h
      exact ih l s1 hl h2
    · cases h; exact hl

theorem readTetras_left {e : List Nat} {last : Str} {s' : Solid D} {l' : Str} {f' : File} : ∀ (f : File) (s : Solid D) (l : Str),
    Left last l f → Unfinished.readTetras false e s l f = .ok (s', l', f') → Left last l' f'
  | [], s, l, hl, h => by
    rw [Unfinished.readTetras] at h
    obtain ⟨s1, _, h2⟩ := bind_eq_ok.1 h
    cases h2
    exact hl
  | [l2], s, l, hl, h => by
    rw [Unfinished.readTetras] at h
    obtain ⟨s1, _, h2⟩ := bind_eq_ok.1 h
    cases h2
    rcases hl with ⟨hl, _⟩ | hl
    · cases hl
    · exact Or.inr hl
  | l2 :: l3 :: ls, s, l, hl, h => by
    rw [Unfinished.readTetras] at h
    obtain ⟨s1, h1, h2⟩ := bind_eq_ok.1 h
    have hl' : ls.getLastD l3 = last := by
      rcases hl with ⟨hl, _⟩ | hl
      · cases hl
      · rw [List.getLastD_cons, List.getLastD_cons] at hl; exact hl
    split at h2
    · exact readTetras_left ls s1 l3 (Or.inr hl') h2
    · cases h2
      exact Or.inr hl'

theorem begin_not_model {l x : Str} (h : startsWith l (cs!"BEGIN_" ++ x) = true) : startsWith l cs!"MODEL" = false := by
  cases l with
  | nil => rfl
  | cons c l =>
    unfold startsWith at *
    cases hb : cs!"MODEL".isPrefixOf (c :: l) with
    | false => rfl
    | true =>
      simp [List.isPrefixOf] at h hb
      rw [← hb.1] at h
      exact absurd h.1 (by decide)

theorem skipSection_left {last k l l' : Str} {f f' : File} (hl : Left last l f) (h : Unfinished.skipSection false k l f = .ok (l', f')) : Left last l' f' := by
  unfold Unfinished.skipSection at h
  split at h
  case isTrue hb =>
    obtain ⟨⟨x, g⟩, h1, h2⟩ := bind_eq_ok.1 h
    obtain ⟨u, rfl⟩ := (GocadCut.gotoKeyword_cut _).suffix h1
    cases g with
    | nil =>
      cases h2
      rw [List.append_assoc] at hb
      exact Or.inl ⟨rfl, begin_not_model hb⟩
    | cons a g =>
      cases h2
      refine Or.inr ?_
      rcases hl with ⟨hl, _⟩ | hl
      · simp at hl
      · rw [← hl]
        clear hl h h1
        have : ∀ (u : File) (d : Str), (u ++ l' :: f').getLastD d = f'.getLastD l' := by
          intro u
          induction u with
          | nil => intro d; rw [List.nil_append, List.getLastD_cons]
          | cons a u ih => intro d; rw [List.cons_append, List.getLastD_cons, ih]
        exact (this u l).symm
  case isFalse => cases h; exact hl

theorem getLastD_suffix {u g : File} {a d : Str} : (u ++ a :: g).getLastD d = g.getLastD a := by
  induction u generalizing d with
  | nil => rw [List.nil_append, List.getLastD_cons]
  | cons b u ih => rw [List.cons_append, List.getLastD_cons, ih]

/-- With the last line of the file unfinished, the front part leaves it as the last line to see. -/
theorem loadFront_left {f g : File} {name : Option Str} {h : Headers D} {s : Solid D} {l : Str}
    (h0 : Unfinished.loadFront false f = .ok (name, h, s, l, g)) : Left (f.getLastD []) l g := by
  unfold Unfinished.loadFront at h0
  obtain ⟨⟨_, f1⟩, a1, h1⟩ := bind_eq_ok.1 h0
  obtain ⟨⟨_, f2⟩, a2, h1⟩ := bind_eq_ok.1 h1
  obtain ⟨⟨_, f3⟩, a3, h1⟩ := bind_eq_ok.1 h1
  obtain ⟨⟨_, f4⟩, a4, h1⟩ := bind_eq_ok.1 h1
  obtain ⟨⟨_, f5⟩, a5, h1⟩ := bind_eq_ok.1 h1
  obtain ⟨⟨_, l6, f6⟩, a6, h1⟩ := bind_eq_ok.1 h1
  obtain ⟨⟨l7, f7⟩, a7, h1⟩ := bind_eq_ok.1 h1
  obtain ⟨⟨_, l8, f8⟩, a8, h1⟩ := bind_eq_ok.1 h1
  obtain ⟨⟨l9, f9⟩, a9, h1⟩ := bind_eq_ok.1 h1
  cases h1
  obtain ⟨u1, rfl⟩ := (GocadCut.gotoKeyword_cut _).suffix a1
  obtain ⟨u2, rfl⟩ := GocadCut.readHeader_cut.suffix a2
  obtain ⟨u3, rfl⟩ := GocadCut.readCrs_cut.suffix a3
  obtain ⟨u4, rfl⟩ := (GocadCut.readPropHeader_cut _).suffix a4
  obtain ⟨u5, rfl⟩ := (GocadCut.readPropHeader_cut _).suffix a5
  unfold Unfinished.readVertices at a6
  obtain ⟨⟨l0, f0⟩, b1, b2⟩ := bind_eq_ok.1 a6
  obtain ⟨s0, _, b3⟩ := bind_eq_ok.1 b2
  obtain ⟨u, rfl⟩ := GocadCut.gotoKeywords_suffix b1
  refine skipSection_left (readTetras_left _ _ _ (skipSection_left (Or.inr ?_) a7) a8) a9
  refine verticesLoop_left f0 l0 s0 ?_ b3
  simp only [← List.append_assoc]
  exact getLastD_suffix.symm

end Verif.LsoEnds
