import Verif.Props.LsoOutcomes
import Verif.Props.MlRefused
import Verif.Lemmas.FirstBad

/-!
# C169: the `.lso` files that do not load

For every file, when loading has undefined behaviour, that it always ends, and that all other files that do not load are refused with an exception.
Theorems about `Model.Lso`.
-/

set_option linter.unusedSectionVars false

namespace Verif.Props.LsoRefused

open Verif Verif.Gocad Verif.GocadMesh Verif.Lso Res
open Verif.Props.WlOutcomes (First goto_iff)
open Verif.Props.CurveOutcomes (Coordinates point_iff)
open Verif.Props.PointSetOutcomes (Valued Filled properties_iff header_lengths FirstVertex firstVertex_iff)
open Verif.Props.SurfaceOutcomes (Third third_iff readIndex_ok)
open Verif.Props.PropHeaders (Header header_iff)
open Verif.Props.LsoFile (isRegion)
open Verif.Props.LsoIndicators (noSolid)
open Verif.Props.LsoOutcomes

variable {D : Type} [Num D]

/-! ## Words that are missing -/

/-- There are less than `n` words from the place `k` on, and all of them are accepted. -/
def Short (ok : Str → Prop) (ws : List Str) (k n : Nat) : Prop := ws.length < k + n ∧ ∀ w ∈ ws.drop k, ok w

/-- A whole number. -/
def IsIndex (w : Str) : Prop := ∃ n, parseIndex w = some n

/-- A number. -/
def IsReal (D : Type) [Num D] (w : Str) : Prop := ∃ v : D, Num.parse w = some v

/-- Reading one word, then the others. -/
theorem short_step {ok : Str → Prop} {ws : List Str} {k n : Nat} : Short ok ws k (n + 1) ↔ ws.length ≤ k ∨ ∃ w, ws[k]? = some w ∧ ok w ∧ Short ok ws (k + 1) n := by
  unfold Short
  constructor
  · rintro ⟨h1, h2⟩
    by_cases hk : ws.length ≤ k
    · exact .inl hk
    · have hk : k < ws.length := by omega
      rw [List.drop_eq_getElem_cons hk] at h2
      exact .inr ⟨ws[k], List.getElem?_eq_getElem hk, h2 _ List.mem_cons_self, by omega, fun w hw => h2 w (List.mem_cons_of_mem _ hw)⟩
  · rintro (h | ⟨w, h1, h2, h3, h4⟩)
    · exact ⟨by omega, by rw [List.drop_eq_nil_of_le h]; simp⟩
    · obtain ⟨hk, rfl⟩ := List.getElem?_eq_some_iff.1 h1
      refine ⟨by omega, ?_⟩
      rw [List.drop_eq_getElem_cons hk]
      intro w hw
      rcases List.mem_cons.1 hw with rfl | hw
      · exact h2
      · exact h4 w hw

theorem readIndex_ne {w : Str} : readIndex w ≠ .ub ∧ readIndex w ≠ .diverge := by
  unfold readIndex Res.ofParse
  split <;> simp

theorem readDouble_ne {w : Str} : (readDouble w : Res D) ≠ .ub ∧ (readDouble w : Res D) ≠ .diverge := by
  unfold readDouble Res.ofParse
  split <;> simp

theorem index_ne {A : Type} {l : List A} {i : Nat} : Res.index l i ≠ .diverge := MlRefused.index_ends

/-! ## Vertices -/

theorem point_ub {up : Bool} {ws : List Str} : (readPoint up ws : Res (Pt D)) = .ub ↔ Short (IsReal D) ws 2 3 := by
  have one : ∀ (k n : Nat) (r : D → Res (Pt D)), (∀ x, r x = .ub ↔ Short (IsReal D) ws (k + 1) n) →
      ((Res.index ws k >>= fun w => (readDouble w : Res D) >>= r) = .ub ↔ Short (IsReal D) ws k (n + 1)) := by
    intro k n r hr
    rw [short_step, bind_ub, index_ub_iff]
    refine or_congr Iff.rfl ?_
    constructor
    · rintro ⟨w, h1, h⟩
      rcases bind_ub.1 h with h | ⟨x, h2, h⟩
      · exact absurd h readDouble_ne.1
      · exact ⟨w, index_eq_ok.1 h1, ⟨x, PropHeaders.readDouble_ok.1 h2⟩, (hr x).1 h⟩
    · rintro ⟨w, h1, ⟨x, h2⟩, h3⟩
      exact ⟨w, index_eq_ok.2 h1, by rw [PropHeaders.readDouble_ok.2 h2, ok_bind]; exact (hr x).2 h3⟩
  by_cases h5 : ws.length < 5
  · unfold readPoint
    refine one 2 2 _ fun x => one 3 1 _ fun y => ?_
    rw [short_step, bind_ub, index_ub_iff]
    constructor
    · rintro (h | ⟨w, h1, _⟩)
      · exact .inl h
      · have := (List.getElem?_eq_some_iff.1 (index_eq_ok.1 h1)).1
        omega
    · rintro (h | ⟨w, h1, _⟩)
      · exact .inl h
      · have := (List.getElem?_eq_some_iff.1 h1).1
        omega
  · constructor
    · intro h
      exact absurd h (GocadUb.readPoint_ne_ub (by omega))
    · rintro ⟨h, _⟩
      omega

theorem point_ends {up : Bool} {ws : List Str} : (readPoint up ws : Res (Pt D)) ≠ .diverge := by
  intro h
  unfold readPoint at h
  rcases bind_diverge.1 h with h | ⟨_, _, h⟩
  · exact index_ne h
  rcases bind_diverge.1 h with h | ⟨_, _, h⟩
  · exact readDouble_ne.2 h
  rcases bind_diverge.1 h with h | ⟨_, _, h⟩
  · exact index_ne h
  rcases bind_diverge.1 h with h | ⟨_, _, h⟩
  · exact readDouble_ne.2 h
  rcases bind_diverge.1 h with h | ⟨_, _, h⟩
  · exact index_ne h
  rcases bind_diverge.1 h with h | ⟨_, _, h⟩
  · exact readDouble_ne.2 h
  simp at h

theorem items_ne (e : Nat) (ws : List Str) : (readItems e ws : Res (List D × List Str)) ≠ .ub ∧ (readItems e ws : Res (List D × List Str)) ≠ .diverge := by
  induction e generalizing ws with
  | zero => simp [readItems]
  | succ e ih =>
    cases ws with
    | nil => simp [readItems]
    | cons w ws =>
      rw [readItems]
      constructor
      · intro h
        rcases bind_ub.1 h with h | ⟨_, _, h⟩
        · exact readDouble_ne.1 h
        rcases bind_ub.1 h with h | ⟨_, _, h⟩
        · exact (ih ws).1 h
        simp at h
      · intro h
        rcases bind_diverge.1 h with h | ⟨_, _, h⟩
        · exact readDouble_ne.2 h
        rcases bind_diverge.1 h with h | ⟨_, _, h⟩
        · exact (ih ws).2 h
        simp at h

theorem properties_ne (es : List Nat) (cols : List (List D)) (hl : es.length = cols.length) (ws : List Str) :
    readProperties es cols ws ≠ .ub ∧ readProperties es cols ws ≠ .diverge := by
  induction es generalizing cols ws with
  | nil => simp [readProperties]
  | cons e es ih =>
    cases cols with
    | nil => simp at hl
    | cons c cols =>
      rw [readProperties]
      constructor
      · intro h
        rcases bind_ub.1 h with h | ⟨⟨_, rest⟩, _, h⟩
        · exact (items_ne e ws).1 h
        rcases bind_ub.1 h with h | ⟨_, _, h⟩
        · exact (ih cols (by simpa using hl) rest).1 h
        simp at h
      · intro h
        rcases bind_diverge.1 h with h | ⟨⟨_, rest⟩, _, h⟩
        · exact (items_ne e ws).2 h
        rcases bind_diverge.1 h with h | ⟨_, _, h⟩
        · exact (ih cols (by simpa using hl) rest).2 h
        simp at h

/-- The line of a vertex with which reading has undefined behaviour, after `np` vertices, `nb` of which have a line of their own. -/
def BadVertex (D : Type) [Num D] (es : List Nat) (np nb : Nat) (l : Str) : Prop :=
  (isShared l = true ∧ ((split l).length < 3 ∨
    ∃ n, Third l n ∧ (np ≤ sub32 n 1 ∨ (nb ≤ sub32 n 1 ∧ Valued D es ((split l).drop 3))))) ∨
  (isShared l = false ∧ Short (IsReal D) (split l) 2 3)

theorem vertex_ub {up : Bool} {h : PropHeader D} {s : Solid D} {l : Str} (hf : Filled h s.vattrs s.points.length) :
    readVertex up h.esizes s l = .ub ↔ BadVertex D h.esizes s.points.length s.nbUnique l := by
  have hp := hf.sizes.trans hf.cols.symm
  unfold readVertex BadVertex
  dsimp only
  cases hs : isShared l with
  | true =>
    rw [if_pos (show startsWith l cs!"SHARED" = true from hs)]
    simp only [true_and, Bool.true_eq_false, false_and, or_false]
    rw [bind_ub, index_ub_iff]
    refine or_congr (by omega) ?_
    constructor
    · rintro ⟨w, e1, e⟩
      rcases bind_ub.1 e with e | ⟨n, e2, e⟩
      · exact absurd e readIndex_ne.1
      have ht : Third l n := third_iff.1 (by rw [e1, ok_bind, e2])
      refine ⟨n, ht, ?_⟩
      rcases bind_ub.1 e with e | ⟨p, e3, e⟩
      · exact .inl (index_ub_iff.1 e)
      rcases bind_ub.1 e with e | ⟨va, e4, e⟩
      · exact absurd e (properties_ne _ _ hp _).1
      by_cases hu : sub32 n 1 < s.nbUnique
      · rw [if_pos hu] at e
        simp at e
      · exact .inr ⟨by omega, (properties_iff _ _ hp _).1 ⟨va, e4⟩⟩
    · rintro ⟨n, ht, h⟩
      obtain ⟨w, e1, e2⟩ := bind_eq_ok.1 (third_iff.2 ht)
      refine ⟨w, e1, ?_⟩
      rw [e2, ok_bind]
      by_cases hn : s.points.length ≤ sub32 n 1
      · rw [index_ub_iff.2 hn]
        rfl
      · rcases h with h | ⟨h, hv⟩
        · exact absurd h hn
        · obtain ⟨va, e4⟩ := (properties_iff _ s.vattrs hp _).2 hv
          rw [index_of_lt (by omega), ok_bind, e4, ok_bind, if_neg (by omega)]
  | false =>
    rw [if_neg (by rw [show startsWith l cs!"SHARED" = false from hs]; simp)]
    simp only [Bool.false_eq_true, false_and, true_and, false_or]
    rw [bind_ub, point_ub]
    constructor
    · rintro (h | ⟨p, _, e⟩)
      · exact h
      · rcases bind_ub.1 e with e | ⟨va, e4, e⟩
        · exact absurd e (properties_ne _ _ hp _).1
        · simp at e
    · exact .inl

theorem vertex_ends {up : Bool} {h : PropHeader D} {s : Solid D} {l : Str} (hf : Filled h s.vattrs s.points.length) :
    readVertex up h.esizes s l ≠ .diverge := by
  have hp := hf.sizes.trans hf.cols.symm
  intro e
  unfold readVertex at e
  dsimp only at e
  split at e
  · rcases bind_diverge.1 e with e | ⟨_, _, e⟩
    · exact index_ne e
    rcases bind_diverge.1 e with e | ⟨_, _, e⟩
    · exact readIndex_ne.2 e
    rcases bind_diverge.1 e with e | ⟨_, _, e⟩
    · exact index_ne e
    rcases bind_diverge.1 e with e | ⟨_, _, e⟩
    · exact (properties_ne _ _ hp _).2 e
    split at e <;> simp at e
  · rcases bind_diverge.1 e with e | ⟨_, _, e⟩
    · exact point_ends e
    rcases bind_diverge.1 e with e | ⟨_, _, e⟩
    · exact (properties_ne _ _ hp _).2 e
    simp at e

/-- The lines of vertices have a bad one, after lines that are read. -/
def BadVertices (up : Bool) (es : List Nat) : List (Pt D) → Nat → File → Prop
  | _, _, [] => False
  | prev, nb, l :: ls => BadVertex D es prev.length nb l ∨
      ∃ p id, VertexLine up es prev nb l p id ∧ BadVertices up es (prev ++ [p]) (nb + if isShared l then 0 else 1) ls

theorem loop_ub {up : Bool} {h : PropHeader D} (f : File) (s : Solid D) (hf : Filled h s.vattrs s.points.length) :
    readVerticesLoop up h.esizes s f = .ub ↔ BadVertices up h.esizes s.points s.nbUnique (f.takeWhile hasVrtx) := by
  induction f generalizing s with
  | nil => simp [readVerticesLoop, BadVertices]
  | cons x f ih =>
    rw [readVerticesLoop]
    cases hx : hasVrtx x with
    | true =>
      rw [List.takeWhile_cons_of_pos hx, if_pos (show contains cs!"VRTX" x = true from hx), bind_ub, vertex_ub hf, BadVertices]
      refine or_congr Iff.rfl ?_
      constructor
      · rintro ⟨s1, e1, e2⟩
        obtain ⟨p, id, hv, hg⟩ := vertex_fwd hf e1
        have := (ih s1 hg.filled).1 e2
        rw [hg.points, hg.nb] at this
        exact ⟨p, id, hv, this⟩
      · rintro ⟨p, id, hv, hb⟩
        obtain ⟨s1, e1, hg⟩ := vertex_bwd hf hv
        rw [← hg.points, ← hg.nb] at hb
        exact ⟨s1, e1, (ih s1 hg.filled).2 hb⟩
    | false =>
      rw [List.takeWhile_cons_of_neg (by simp [hx]), if_neg (by rw [show contains cs!"VRTX" x = false from hx]; simp)]
      simp [BadVertices]

theorem loop_ends {up : Bool} {h : PropHeader D} (f : File) (s : Solid D) (hf : Filled h s.vattrs s.points.length) :
    readVerticesLoop up h.esizes s f ≠ .diverge := by
  induction f generalizing s with
  | nil => simp [readVerticesLoop]
  | cons x f ih =>
    rw [readVerticesLoop]
    split
    · intro e
      rcases bind_diverge.1 e with e | ⟨s1, e1, e⟩
      · exact vertex_ends hf e
      · obtain ⟨p, id, hv, hg⟩ := vertex_fwd hf e1
        exact ih s1 hg.filled e
    · simp

theorem gotoKeywords_ne (kws : List Str) (f : File) : gotoKeywords kws f ≠ .ub ∧ gotoKeywords kws f ≠ .diverge := by
  induction f with
  | nil => simp [gotoKeywords]
  | cons l f ih =>
    rw [gotoKeywords]
    split
    · simp
    · exact ih

theorem gotoKeyword_ne (kw : Str) (f : File) : gotoKeyword kw f ≠ .ub ∧ gotoKeyword kw f ≠ .diverge := by
  unfold gotoKeyword Res.ofParse
  split <;> simp

theorem vertices_ub {up : Bool} {h : PropHeader D} {f : File} {s : Solid D} (hf : Filled h s.vattrs s.points.length) :
    readVertices up h.esizes s f = .ub ↔ ∃ v after, FirstVertex f v after ∧ BadVertices up h.esizes s.points s.nbUnique (v :: after.takeWhile hasVrtx) := by
  unfold readVertices
  rw [bind_ub]
  constructor
  · rintro (e | ⟨⟨v, after⟩, e1, e⟩)
    · exact absurd e (gotoKeywords_ne _ _).1
    · refine ⟨v, after, firstVertex_iff.1 e1, ?_⟩
      dsimp only at e
      rcases bind_ub.1 e with e | ⟨s1, e2, e⟩
      · exact .inl ((vertex_ub hf).1 e)
      · obtain ⟨p, id, hv, hg⟩ := vertex_fwd hf e2
        have := (loop_ub after s1 hg.filled).1 e
        rw [hg.points, hg.nb] at this
        exact .inr ⟨p, id, hv, this⟩
  · rintro ⟨v, after, h1, h2⟩
    refine .inr ⟨(v, after), firstVertex_iff.2 h1, ?_⟩
    dsimp only
    rw [bind_ub]
    rcases h2 with h2 | ⟨p, id, hv, hb⟩
    · exact .inl ((vertex_ub hf).2 h2)
    · obtain ⟨s1, e1, hg⟩ := vertex_bwd hf hv
      rw [← hg.points, ← hg.nb] at hb
      exact .inr ⟨s1, e1, (loop_ub after s1 hg.filled).2 hb⟩

theorem vertices_end {up : Bool} {h : PropHeader D} {f : File} {s : Solid D} (hf : Filled h s.vattrs s.points.length) :
    readVertices up h.esizes s f ≠ .diverge := by
  intro e
  unfold readVertices at e
  rcases bind_diverge.1 e with e | ⟨⟨v, after⟩, e1, e⟩
  · exact (gotoKeywords_ne _ _).2 e
  dsimp only at e
  rcases bind_diverge.1 e with e | ⟨s1, e2, e⟩
  · exact vertex_ends hf e
  · obtain ⟨p, id, hv, hg⟩ := vertex_fwd hf e2
    exact loop_ends after s1 hg.filled e

theorem skip_ne (kind l : Str) (f : File) : skipSection kind l f ≠ .ub ∧ skipSection kind l f ≠ .diverge := by
  unfold skipSection
  split
  · constructor
    · intro e
      rcases bind_ub.1 e with e | ⟨_, _, e⟩
      · exact (gotoKeyword_ne _ _).1 e
      · simp at e
    · intro e
      rcases bind_diverge.1 e with e | ⟨_, _, e⟩
      · exact (gotoKeyword_ne _ _).2 e
      · simp at e
  · simp

/-! ## Cells -/

theorem cell_ub {n : Nat} {l : Str} : readCell n (split l) = .ub ↔ n ≠ 0 ∧ Short IsIndex (split l) 1 n := by
  unfold readCell
  generalize split l = ws
  suffices h : ∀ k, Res.mapM' (fun i => do
      let v ← readIndex (← Res.index ws i)
      pure (sub32 v 1)) (List.range' k n) = .ub ↔ n ≠ 0 ∧ Short IsIndex ws k n from h 1
  induction n with
  | zero => simp
  | succ n ih =>
    intro k
    rw [List.range'_succ, mapM'_cons, bind_ub, bind_ub, index_ub_iff, short_step]
    constructor
    · rintro ((h | ⟨w, h1, h⟩) | ⟨x, h1, h⟩)
      · exact ⟨by simp, .inl h⟩
      · rcases bind_ub.1 h with h | ⟨_, _, h⟩
        · exact absurd h readIndex_ne.1
        · simp at h
      · obtain ⟨w, h2, h1⟩ := bind_eq_ok.1 h1
        obtain ⟨v, h3, _⟩ := bind_eq_ok.1 h1
        rcases bind_ub.1 h with h | ⟨_, _, h⟩
        · exact ⟨by simp, .inr ⟨w, index_eq_ok.1 h2, ⟨v, readIndex_ok.1 h3⟩, ((ih (k + 1)).1 h).2⟩⟩
        · simp at h
    · rintro ⟨_, h | ⟨w, h1, ⟨v, h2⟩, h3⟩⟩
      · exact .inl (.inl h)
      · have hk := (List.getElem?_eq_some_iff.1 h1).1
        refine .inr ⟨sub32 v 1, by rw [index_eq_ok.2 h1, ok_bind, readIndex_ok.2 h2]; rfl, ?_⟩
        have hn : n ≠ 0 := by
          rintro rfl
          have := h3.1
          omega
        rw [(ih (k + 1)).2 ⟨hn, h3⟩]
        rfl

theorem cell_ends {n : Nat} {ws : List Str} : readCell n ws ≠ .diverge := by
  unfold readCell
  generalize List.range' 1 n = is
  induction is with
  | nil => simp
  | cons i is ih =>
    rw [mapM'_cons]
    intro h
    rcases bind_diverge.1 h with h | ⟨_, _, h⟩
    · rcases bind_diverge.1 h with h | ⟨_, _, h⟩
      · exact index_ne h
      rcases bind_diverge.1 h with h | ⟨_, _, h⟩
      · exact readIndex_ne.2 h
      simp at h
    · rcases bind_diverge.1 h with h | ⟨_, _, h⟩
      · exact ih h
      simp at h

/-! ## Tetrahedra -/

/-- The two lines of a tetrahedron with which reading has undefined behaviour, in a solid with `nb` points. -/
def BadTetra (D : Type) [Num D] (es : List Nat) (nb : Nat) (l l2 : Str) : Prop :=
  Short IsIndex (split l) 1 4 ∨ ∃ t, Cell 4 l t ∧ ((∃ v ∈ t, nb ≤ v) ∨ ((split l2).length < 3 ∧ Valued D es ((split l).drop 5)))

theorem create_ub {nb : Nat} {t : List Nat} : createCell nb t = .ub ↔ ∃ v ∈ t, nb ≤ v := by
  unfold createCell
  split
  · rename_i h
    simp only [reduceCtorEq, false_iff]
    rintro ⟨v, hv, hn⟩
    have := List.all_eq_true.1 h v hv
    have := of_decide_eq_true this
    omega
  · rename_i h
    simp only [true_iff]
    have : ¬∀ v ∈ t, v < nb := by simpa using h
    obtain ⟨v, hv⟩ := Classical.not_forall.1 this
    obtain ⟨hv, hn⟩ := Classical.not_imp.1 hv
    exact ⟨v, hv, by omega⟩

theorem tetra_ub {h : PropHeader D} {s : Solid D} {l l2 : Str} (hf : Filled h s.tattrs s.tetras.length) :
    readTetra h.esizes s l l2 = .ub ↔ BadTetra D h.esizes s.points.length l l2 := by
  have hp := hf.sizes.trans hf.cols.symm
  unfold readTetra BadTetra
  rw [bind_ub, cell_ub]
  refine or_congr (by simp) ?_
  constructor
  · rintro ⟨t, e1, e⟩
    refine ⟨t, cell_iff.1 e1, ?_⟩
    rcases bind_ub.1 e with e | ⟨u, e2, e⟩
    · exact .inl (create_ub.1 e)
    rcases bind_ub.1 e with e | ⟨ta, e3, e⟩
    · exact absurd e (properties_ne _ _ hp _).1
    rcases bind_ub.1 e with e | ⟨_, _, e⟩
    · exact .inr ⟨by have := index_ub_iff.1 e; omega, (properties_iff _ _ hp _).1 ⟨ta, e3⟩⟩
    · simp at e
  · rintro ⟨t, h1, h⟩
    refine ⟨t, cell_iff.2 h1, ?_⟩
    by_cases hb : ∃ v ∈ t, s.points.length ≤ v
    · rw [create_ub.2 hb]
      rfl
    · rcases h with h | ⟨h, hv⟩
      · exact absurd h hb
      · obtain ⟨ta, e3⟩ := (properties_iff _ s.tattrs hp _).2 hv
        rw [create_iff.2 ⟨rfl, fun v hv => Nat.lt_of_not_le fun hn => hb ⟨v, hv, hn⟩⟩, ok_bind, e3, ok_bind, index_ub_iff.2 (by omega)]
        rfl

theorem tetra_ends {h : PropHeader D} {s : Solid D} {l l2 : Str} (hf : Filled h s.tattrs s.tetras.length) : readTetra h.esizes s l l2 ≠ .diverge := by
  have hp := hf.sizes.trans hf.cols.symm
  intro e
  unfold readTetra at e
  rcases bind_diverge.1 e with e | ⟨_, _, e⟩
  · exact cell_ends e
  rcases bind_diverge.1 e with e | ⟨_, _, e⟩
  · unfold createCell at e
    split at e <;> simp at e
  rcases bind_diverge.1 e with e | ⟨_, _, e⟩
  · exact (properties_ne _ _ hp _).2 e
  rcases bind_diverge.1 e with e | ⟨_, _, e⟩
  · exact index_ne e
  simp at e

/-- The lines of the tetrahedra have a bad one, after tetrahedra that are read.  The line after the last line of the file is empty. -/
inductive BadTetras (D : Type) [Num D] (es : List Nat) (nb : Nat) : File → Prop
  | here {f : File} (h : BadTetra D es nb (nextLine f).1 (nextLine f.tail).1) : BadTetras D es nb f
  | later {l l2 l3 t name f} (h : TetraLine D es nb l l2 t name) (h3 : isTetra l3 = true) (hr : BadTetras D es nb (l3 :: f)) :
      BadTetras D es nb (l :: l2 :: l3 :: f)

theorem tetras_ub {h : PropHeader D} : ∀ (n : Nat) {f : File} {l : Str} {s : Solid D}, f.length ≤ n → Filled h s.tattrs s.tetras.length →
    (readTetras h.esizes s l f = .ub ↔ BadTetras D h.esizes s.points.length (l :: f)) := by
  intro n
  induction n using Nat.strongRecOn with
  | ind n ih =>
    intro f l s hn hf
    match f, hn with
    | [], _ =>
      rw [readTetras, bind_ub, tetra_ub hf]
      constructor
      · rintro (h | ⟨s1, _, h⟩)
        · exact .here h
        · simp at h
      · intro h
        cases h with
        | here h => exact .inl h
    | [l2], _ =>
      rw [readTetras, bind_ub, tetra_ub hf]
      constructor
      · rintro (h | ⟨s1, _, h⟩)
        · exact .here h
        · simp at h
      · intro h
        cases h with
        | here h => exact .inl h
    | l2 :: l3 :: f, hn =>
      rw [readTetras, bind_ub, tetra_ub hf]
      simp only [List.length_cons] at hn
      constructor
      · rintro (h | ⟨s1, e1, h⟩)
        · exact .here h
        · obtain ⟨t, name, h1, h2⟩ := tetra_fwd hf e1
          split at h
          · rename_i h3
            have := (ih f.length (by omega) (Nat.le_refl _) h2.filled).1 h
            rw [h2.points] at this
            exact .later h1 h3 this
          · simp at h
      · intro h
        cases h with
        | here h => exact .inl h
        | later h1 h3 hr =>
          obtain ⟨s1, e1, ha⟩ := tetra_bwd hf h1
          rw [← ha.points] at hr
          exact .inr ⟨s1, e1, by rw [if_pos (show startsWith l3 cs!"TETRA" = true from h3)]; exact (ih f.length (by omega) (Nat.le_refl _) ha.filled).2 hr⟩

theorem tetras_end {h : PropHeader D} : ∀ (n : Nat) {f : File} {l : Str} {s : Solid D}, f.length ≤ n → Filled h s.tattrs s.tetras.length →
    readTetras h.esizes s l f ≠ .diverge := by
  intro n
  induction n using Nat.strongRecOn with
  | ind n ih =>
    intro f l s hn hf e
    match f, hn, e with
    | [], _, e =>
      rw [readTetras] at e
      rcases bind_diverge.1 e with e | ⟨s1, _, e⟩
      · exact tetra_ends hf e
      · simp at e
    | [l2], _, e =>
      rw [readTetras] at e
      rcases bind_diverge.1 e with e | ⟨s1, _, e⟩
      · exact tetra_ends hf e
      · simp at e
    | l2 :: l3 :: f, hn, e =>
      rw [readTetras] at e
      simp only [List.length_cons] at hn
      rcases bind_diverge.1 e with e | ⟨s1, e1, e⟩
      · exact tetra_ends hf e
      · obtain ⟨t, name, h1, h2⟩ := tetra_fwd hf e1
        split at e
        · exact ih f.length (by omega) (Nat.le_refl _) h2.filled e
        · simp at e

/-! ## Surfaces -/

/-- The lines of the surfaces that are read, in order: the line of each surface, then the triangles of its faces. -/
inductive Item
  | surface (l : Str)
  | triangle (l : Str)

def items (ss : List (Str × List File)) : List Item := ss.flatMap fun e => .surface e.1 :: e.2.flatten.map .triangle

/-- The name of a surface is there, the vertices of a triangle are among the `nb` places. -/
def Fine (nb : Nat) : Item → Prop
  | .surface l => 2 ≤ (split l).length
  | .triangle l => ∃ t, Triangle nb l t

/-- The name of a surface is not there, words are missing to a triangle, or the number of one of its vertices is too large. -/
def Wrong (nb : Nat) : Item → Prop
  | .surface l => (split l).length < 2
  | .triangle l => Short IsIndex (split l) 1 3 ∨ ∃ t, Cell 3 l t ∧ ∃ v ∈ t, nb ≤ v

theorem copies_cases (s : Solid D) (u : Nat) : (u < s.nbUnique ∧ ∃ r, copies s u = .ok r) ∨ (s.nbUnique ≤ u ∧ copies s u = .ub) := by
  unfold copies
  by_cases h : u < s.nbUnique
  · exact .inl ⟨h, by simp [h]⟩
  · exact .inr ⟨by omega, by simp [h]⟩

theorem facets_cases (s : Solid D) (a b c : Nat) : ((∀ v ∈ [a, b, c], v < s.nbUnique) ∧ ∃ fs, facetsFrom s [a, b, c] = .ok fs) ∨
    ((∃ v ∈ [a, b, c], s.nbUnique ≤ v) ∧ facetsFrom s [a, b, c] = .ub) := by
  by_cases h : ∀ v ∈ [a, b, c], v < s.nbUnique
  · exact .inl ⟨h, facets_iff.2 h⟩
  · right
    have h' : ∃ v ∈ [a, b, c], s.nbUnique ≤ v := by
      obtain ⟨v, hv⟩ := Classical.not_forall.1 h
      obtain ⟨hv, hn⟩ := Classical.not_imp.1 hv
      exact ⟨v, hv, by omega⟩
    refine ⟨h', ?_⟩
    have e : facetsFrom s [a, b, c] = copies s a >>= fun as => copies s b >>= fun bs => copies s c >>= fun cs =>
        .ok ((as.flatMap fun a => bs.flatMap fun b => cs.map fun c => facetKey [a, b, c]).filter fun k => s.tetras.any fun t => (facets t).contains k) := rfl
    rw [e]
    rcases copies_cases s a with ⟨ha, x, e1⟩ | ⟨_, e1⟩
    · rw [e1, ok_bind]
      rcases copies_cases s b with ⟨hb, y, e2⟩ | ⟨_, e2⟩
      · rw [e2, ok_bind]
        rcases copies_cases s c with ⟨hc, z, e3⟩ | ⟨_, e3⟩
        · exact absurd (by simp [ha, hb, hc]) h
        · rw [e3]; rfl
      · rw [e2]; rfl
    · rw [e1]; rfl

theorem mapM'_index_ne {A : Type} {l : List A} (is : List Nat) : Res.mapM' (Res.index l) is ≠ .throw ∧ Res.mapM' (Res.index l) is ≠ .diverge := by
  induction is with
  | nil => simp
  | cons i is ih =>
    rw [mapM'_cons]
    unfold Res.index at ih ⊢
    cases l[i]? with
    | none => simp
    | some a =>
      rw [ok_bind]
      cases h : Res.mapM' (fun i => match l[i]? with
        | some a => Res.ok a
        | none => Res.ub) is with
      | ok r => simp
      | ub => simp
      | throw => exact absurd h ih.1
      | diverge => exact absurd h ih.2

theorem index_mapM_ub {A : Type} {l : List A} {is : List Nat} (h : Res.mapM' (Res.index l) is = .ub) : ∃ i ∈ is, l.length ≤ i := by
  induction is with
  | nil => simp at h
  | cons i is ih =>
    rw [mapM'_cons] at h
    rcases bind_ub.1 h with h | ⟨_, _, h⟩
    · exact ⟨i, by simp, index_ub_iff.1 h⟩
    · rcases bind_ub.1 h with h | ⟨_, _, h⟩
      · obtain ⟨j, hj, hl⟩ := ih h
        exact ⟨j, by simp [hj], hl⟩
      · simp at h

theorem triangle_ub {s : Solid D} (hnb : s.nbUnique ≤ s.points.length) {st : RState} {l : Str} {before : List RSurface} {cur : RSurface}
    (hs : st.surfaces = before ++ [cur]) : readTriangle s st l = .ub ↔ Wrong s.nbUnique (.triangle l) := by
  unfold readTriangle Wrong
  rw [bind_ub, cell_ub]
  refine or_congr (by simp) ?_
  constructor
  · rintro ⟨t, e1, e⟩
    have hc := cell_iff.1 e1
    refine ⟨t, hc, ?_⟩
    obtain ⟨a, b, c, rfl⟩ := cell_three hc
    rcases facets_cases s a b c with ⟨h, fs, e3⟩ | ⟨h, _⟩
    · rcases bind_ub.1 e with e | ⟨_, _, e⟩
      · obtain ⟨v, hv, hl⟩ := index_mapM_ub e
        exact ⟨v, hv, by omega⟩
      · rw [e3, ok_bind, hs] at e
        simp at e
    · exact h
  · rintro ⟨t, hc, h⟩
    refine ⟨t, cell_iff.2 hc, ?_⟩
    obtain ⟨a, b, c, rfl⟩ := cell_three hc
    rcases facets_cases s a b c with ⟨h', _⟩ | ⟨_, e⟩
    · obtain ⟨v, hv, hn⟩ := h
      have := h' v hv
      omega
    · rw [bind_ub]
      cases hm : Res.mapM' (Res.index s.points) [a, b, c] with
      | ub => exact .inl rfl
      | ok r => exact .inr ⟨r, rfl, by rw [e]; rfl⟩
      | throw => exact absurd hm (mapM'_index_ne _).1
      | diverge => exact absurd hm (mapM'_index_ne _).2

theorem triangle_ends {s : Solid D} {st : RState} {l : Str} : readTriangle s st l ≠ .diverge := by
  intro e
  unfold readTriangle at e
  rcases bind_diverge.1 e with e | ⟨t, e1, e⟩
  · exact cell_ends e
  have hc := cell_iff.1 e1
  obtain ⟨a, b, c, rfl⟩ := cell_three hc
  rcases bind_diverge.1 e with e | ⟨_, _, e⟩
  · exact (mapM'_index_ne _).2 e
  rcases facets_cases s a b c with ⟨_, fs, e3⟩ | ⟨_, e3⟩
  · rw [e3, ok_bind] at e
    split at e <;> simp at e
  · rw [e3] at e
    simp at e

theorem foldM_ends {A S : Type} {g : S → A → Res S} (hg : ∀ s a, g s a ≠ .diverge) (l : List A) : ∀ s, Res.foldM' g s l ≠ .diverge := by
  induction l with
  | nil => intro s; simp
  | cons a l ih =>
    intro s e
    rw [foldM'_cons] at e
    rcases bind_diverge.1 e with e | ⟨_, _, e⟩
    · exact hg _ _ e
    · exact ih _ e

theorem triangles_ub {s : Solid D} (hnb : s.nbUnique ≤ s.points.length) {before : List RSurface} {trs : File} : ∀ {st : RState} {cur : RSurface},
    st.surfaces = before ++ [cur] →
      (Res.foldM' (readTriangle s) st trs = .ub ↔ FirstBad (Fine s.nbUnique) (Wrong s.nbUnique) (trs.map .triangle)) := by
  induction trs with
  | nil => intro st cur hs; simp [firstBad_nil]
  | cons l trs ih =>
    intro st cur hs
    rw [foldM'_cons, bind_ub, triangle_ub hnb hs, List.map_cons, firstBad_cons]
    refine or_congr Iff.rfl ?_
    constructor
    · rintro ⟨st1, e1, e⟩
      obtain ⟨t, h1, h2⟩ := triangle_fwd hs e1
      exact ⟨⟨t, h1⟩, (ih h2.surfaces).1 e⟩
    · rintro ⟨⟨t, h1⟩, h⟩
      obtain ⟨st1, e1, h2⟩ := triangle_bwd hnb hs h1
      exact ⟨st1, e1, (ih h2.surfaces).2 h⟩

theorem fine_triangles {nb : Nat} (trs : File) (h : ∀ l ∈ trs, Fine nb (.triangle l)) : ∃ ts, List.Forall₂ (Triangle nb) trs ts := by
  induction trs with
  | nil => exact ⟨[], .nil⟩
  | cons l trs ih =>
    obtain ⟨t, ht⟩ := h l (by simp)
    obtain ⟨ts, hts⟩ := ih fun x hx => h x (by simp [hx])
    exact ⟨t :: ts, .cons ht hts⟩

theorem faces_ub {s : Solid D} (hnb : s.nbUnique ≤ s.points.length) {fs : List File} : ∀ {st : RState},
    (Res.foldM' (runFace s) st fs = .ub ↔ FirstBad (Fine s.nbUnique) (Wrong s.nbUnique) (fs.flatten.map .triangle)) := by
  induction fs with
  | nil => intro st; simp [firstBad_nil]
  | cons trs fs ih =>
    intro st
    rw [foldM'_cons, bind_ub, List.flatten_cons, List.map_append, firstBad_append]
    refine or_congr (triangles_ub hnb (st := newFace st) rfl) ?_
    constructor
    · rintro ⟨st1, e1, e⟩
      obtain ⟨ts, h1, _⟩ := triangles_fwd (st := newFace st) rfl e1
      refine ⟨?_, ih.1 e⟩
      intro x hx
      obtain ⟨l, hl, rfl⟩ := List.mem_map.1 hx
      obtain ⟨t, _, ht⟩ := LsoOutcomes.forall₂_left h1 l hl
      exact ⟨t, ht⟩
    · rintro ⟨h1, h⟩
      obtain ⟨ts, hts⟩ := fine_triangles trs fun l hl => h1 _ (List.mem_map_of_mem hl)
      obtain ⟨st1, e1, _⟩ := triangles_bwd hnb hts (st := newFace st) rfl
      exact ⟨st1, e1, ih.2 h⟩

theorem faces_fine {s : Solid D} {fs : List File} {st st' : RState} (e : Res.foldM' (runFace s) st fs = .ok st') :
    ∀ x ∈ fs.flatten.map Item.triangle, Fine s.nbUnique x := by
  obtain ⟨cells, h, _⟩ := faces_fwd rfl rfl e
  intro x hx
  obtain ⟨l, hl, rfl⟩ := List.mem_map.1 hx
  obtain ⟨trs, ht, hl⟩ := List.mem_flatten.1 hl
  obtain ⟨ts, _, h1⟩ := LsoOutcomes.forall₂_left h trs ht
  obtain ⟨t, _, h2⟩ := LsoOutcomes.forall₂_left h1 l hl
  exact ⟨t, h2⟩

theorem fine_faces {s : Solid D} (hnb : s.nbUnique ≤ s.points.length) {fs : List File} (st : RState)
    (h : ∀ x ∈ fs.flatten.map Item.triangle, Fine s.nbUnique x) : ∃ st', Res.foldM' (runFace s) st fs = .ok st' := by
  have all : ∀ fs : List File, (∀ x ∈ fs.flatten.map Item.triangle, Fine s.nbUnique x) → ∃ cells, List.Forall₂ (List.Forall₂ (Triangle s.nbUnique)) fs cells := by
    intro fs
    induction fs with
    | nil => intro _; exact ⟨[], .nil⟩
    | cons trs fs ih =>
      intro h
      rw [List.flatten_cons, List.map_append] at h
      obtain ⟨ts, hts⟩ := fine_triangles trs fun l hl => h _ (List.mem_append_left _ (List.mem_map_of_mem hl))
      obtain ⟨cells, hc⟩ := ih fun x hx => h x (List.mem_append_right _ hx)
      exact ⟨ts :: cells, .cons hts hc⟩
  obtain ⟨cells, hc⟩ := all fs h
  obtain ⟨st', e, _⟩ := faces_bwd hnb hc (st := st) rfl rfl
  exact ⟨st', e⟩

theorem surfaces_ub {s : Solid D} (hnb : s.nbUnique ≤ s.points.length) {ss : List (Str × List File)} : ∀ {st : RState},
    (Res.foldM' (runSurface s) st ss = .ub ↔ FirstBad (Fine s.nbUnique) (Wrong s.nbUnique) (items ss)) := by
  induction ss with
  | nil => intro st; simp [items, firstBad_nil]
  | cons e0 ss ih =>
    obtain ⟨l, fs⟩ := e0
    intro st
    have hi : items ((l, fs) :: ss) = .surface l :: (fs.flatten.map .triangle ++ items ss) := by simp [items]
    rw [foldM'_cons, hi, firstBad_cons, firstBad_append, bind_ub]
    have h0 : ∀ w, Res.index (split l) 1 = .ok w → 2 ≤ (split l).length := fun w h => (List.getElem?_eq_some_iff.1 (index_eq_ok.1 h)).1
    constructor
    · rintro (e | ⟨st1, e1, e⟩)
      · unfold runSurface at e
        rcases bind_ub.1 e with e | ⟨w, e2, e⟩
        · have := index_ub_iff.1 e
          exact .inl (show (split l).length < 2 by dsimp only at this; omega)
        · exact .inr ⟨h0 w e2, .inl ((faces_ub hnb).1 e)⟩
      · unfold runSurface at e1
        obtain ⟨w, e2, e1⟩ := bind_eq_ok.1 e1
        exact .inr ⟨h0 w e2, .inr ⟨faces_fine e1, ih.1 e⟩⟩
    · rintro (h | ⟨h1, h⟩)
      · left
        unfold runSurface
        rw [index_ub_iff.2 (show (split l).length ≤ 1 from Nat.le_of_lt_succ h)]
        rfl
      · have e2 := index_of_lt (l := split l) (i := 1) h1
        rcases h with h | ⟨h2, h⟩
        · left
          unfold runSurface
          rw [e2, ok_bind]
          exact (faces_ub hnb).2 h
        · right
          obtain ⟨st1, e1⟩ := fine_faces hnb { st with horizons := st.horizons ++ [readName ((split l).drop 1)] } h2
          refine ⟨st1, ?_, ih.2 h⟩
          unfold runSurface
          rw [e2, ok_bind]
          exact e1

theorem surfaces_end {s : Solid D} (ss : List (Str × List File)) (st : RState) : Res.foldM' (runSurface s) st ss ≠ .diverge := by
  refine foldM_ends (fun st e => ?_) ss st
  intro h
  unfold runSurface at h
  rcases bind_diverge.1 h with h | ⟨_, _, h⟩
  · exact index_ne h
  · exact foldM_ends (fun st trs => foldM_ends (fun _ _ => triangle_ends) trs _) _ _ h

/-! ## Blocks -/

theorem attribute_cases {A : Type} (r : Res A) (h1 : r ≠ .throw) (h2 : r ≠ .diverge) : (∃ a, r = .ok a) ∨ r = .ub := by
  cases r with
  | ok a => exact .inl ⟨a, rfl⟩
  | ub => exact .inr rfl
  | throw => exact absurd rfl h1
  | diverge => exact absurd rfl h2

theorem items_cases (v : List D) (e : Nat) (inv : List Nat) : (∃ a, Res.mapM' (itemsAt v e) inv = .ok a) ∨ Res.mapM' (itemsAt v e) inv = .ub := by
  induction inv with
  | nil => exact .inl ⟨[], rfl⟩
  | cons i inv ih =>
    rw [mapM'_cons]
    rcases attribute_cases (itemsAt v e i) (mapM'_index_ne _).1 (mapM'_index_ne _).2 with ⟨a, h⟩ | h
    · rw [h, ok_bind]
      rcases ih with ⟨b, h⟩ | h
      · rw [h]; exact .inl ⟨_, rfl⟩
      · rw [h]; exact .inr rfl
    · rw [h]; exact .inr rfl

theorem createAttributes_cases (nb : Nat) (inv : List Nat) (names : List Str) : ∀ (s : Store D) (es : List Nat) (ds : List D) (vs : List (List D)),
    (∃ a, createAttributes nb inv s names es ds vs = .ok a) ∨ createAttributes nb inv s names es ds vs = .ub := by
  induction names with
  | nil => intro s es ds vs; exact .inl ⟨s, by unfold createAttributes; rfl⟩
  | cons n ns ih =>
    intro s es ds vs
    match es, ds, vs with
    | e :: es, d :: ds, v :: vs =>
      rw [createAttributes]
      have hi := items_cases v e inv
      have h1 : (∃ a, createAttribute s n e d v nb inv = .ok a) ∨ createAttribute s n e d v nb inv = .ub := by
        unfold createAttribute
        rcases hi with ⟨a, h⟩ | h
        · rw [h, ok_bind]
          unfold setFrom
          split
          · exact .inl ⟨_, rfl⟩
          · exact .inr rfl
        · rw [h]
          exact .inr rfl
      rcases h1 with ⟨a, h⟩ | h
      · rw [h, ok_bind]
        exact ih a es ds vs
      · rw [h]
        exact .inr rfl
    | [], _, _ => exact .inr (by unfold createAttributes; rfl)
    | _ :: _, [], _ => exact .inr (by unfold createAttributes; rfl)
    | _ :: _, _ :: _, [] => exact .inr (by unfold createAttributes; rfl)

theorem block_cases (h : Headers D) (s : Solid D) (st : RState) (l : Str) : (∃ r, readBlock h s st l = .ok r) ∨ readBlock h s st l = .ub := by
  unfold readBlock
  rcases attribute_cases (Res.index (split l) 1) (by unfold Res.index; split <;> simp) index_ne with ⟨name, e⟩ | e
  · rw [e, ok_bind]
    dsimp only
    unfold blockAttributes
    rcases createAttributes_cases (localCells [] (tetrasNamed s name)).1.length (localCells [] (tetrasNamed s name)).1 h.vertices.names [] h.vertices.esizes
      h.vertices.noData s.vattrs with ⟨a, e⟩ | e
    · rw [e, ok_bind]
      rcases createAttributes_cases (localCells [] (tetrasNamed s name)).2.length (localCells [] (tetrasNamed s name)).1 h.tetras.names [] h.tetras.esizes
        h.tetras.noData s.tattrs with ⟨a, e⟩ | e
      · rw [e, ok_bind]
        exact .inl ⟨_, rfl⟩
      · rw [e]; exact .inr rfl
    · rw [e]; exact .inr rfl
  · rw [e]; exact .inr rfl

theorem blocks_cases (h : Headers D) (s : Solid D) (st : RState) (f : File) : ∀ (l : Str) (acc : List (RBlock D) × Bool),
    (∃ r, readBlocks h s st acc l f = .ok r) ∨ readBlocks h s st acc l f = .ub := by
  induction f with
  | nil =>
    rintro l ⟨bs, i⟩
    rw [readBlocks]
    split
    · rcases block_cases h s st l with ⟨r, e⟩ | e
      · rw [e]; exact .inl ⟨_, rfl⟩
      · rw [e]; exact .inr rfl
    · exact .inl ⟨_, rfl⟩
  | cons l2 f ih =>
    rintro l ⟨bs, i⟩
    rw [readBlocks]
    split
    · rcases block_cases h s st l with ⟨r, e⟩ | e
      · rw [e, ok_bind]
        exact ih l2 _
      · rw [e]; exact .inr rfl
    · exact .inl ⟨_, rfl⟩

theorem forall₂_exists {A B : Type} {R : A → B → Prop} {l : List A} : (∃ bs, List.Forall₂ R l bs) ↔ ∀ a ∈ l, ∃ b, R a b := by
  constructor
  · rintro ⟨bs, h⟩ a ha
    obtain ⟨b, _, hb⟩ := LsoOutcomes.forall₂_left h a ha
    exact ⟨b, hb⟩
  · intro h
    induction l with
    | nil => exact ⟨[], .nil⟩
    | cons a l ih =>
      obtain ⟨b, hb⟩ := h a (by simp)
      obtain ⟨bs, hbs⟩ := ih fun a ha => h a (by simp [ha])
      exact ⟨b :: bs, .cons hb hbs⟩

/-- A region that gives no block: it has no name, or there are not enough tetrahedra for the values of their properties. -/
def BadRegion (th : PropHeader D) (ts : List (List Nat)) (names : List Str) (l : Str) : Prop :=
  (split l).length < 2 ∨ ∃ name, (split l)[1]? = some name ∧
    ((th.names ≠ [] ∧ (named ts names name).length < (verticesOf (named ts names name)).length) ∨
      ∃ e ∈ th.esizes, 0 < e ∧ ∃ v ∈ verticesOf (named ts names name), ts.length ≤ v)

theorem badRegion_iff {th : PropHeader D} {ts : List (List Nat)} {names : List Str} {l : Str} : BadRegion th ts names l ↔ ¬∃ b, Region th ts names l b := by
  unfold BadRegion Region
  constructor
  · rintro (h | ⟨name, h1, h⟩) ⟨b, g1, g2, g3, g4, g5⟩
    · have := (List.getElem?_eq_some_iff.1 g1).1
      omega
    · rw [h1] at g1
      obtain ⟨bn, bv, bt⟩ := b
      simp only [Option.some.injEq] at g1 g2 g3 g4 g5
      subst g1 g2 g3
      rcases h with ⟨h2, h3⟩ | ⟨e, he, h0, v, hv, hl⟩
      · have := g4 h2
        simp only [placesOf, List.length_map] at this
        omega
      · have := g5 e he h0 v hv
        omega
  · intro h
    by_cases hl : (split l).length < 2
    · exact .inl hl
    · right
      have hl : 1 < (split l).length := by omega
      refine ⟨_, List.getElem?_eq_getElem hl, ?_⟩
      apply Classical.byContradiction
      intro hn
      refine h ⟨((split l)[1], verticesOf (named ts names (split l)[1]), placesOf (named ts names (split l)[1])), List.getElem?_eq_getElem hl, rfl, rfl, ?_, ?_⟩
      · intro h0
        apply Classical.byContradiction
        intro h1
        exact hn (.inl ⟨h0, by simpa [placesOf] using h1⟩)
      · intro e he h0 v hv
        apply Classical.byContradiction
        intro h1
        exact hn (.inr ⟨e, he, h0, v, hv, by omega⟩)

theorem blocks_ub {vh th : PropHeader D} {s : Solid D} (hw : Whole vh th s) {st : RState} (f : File) :
    readBlocks ⟨vh, th⟩ s st ([], false) (nextLine f).1 (nextLine f).2 = .ub ↔ ∃ l ∈ f.takeWhile isRegion, BadRegion th s.tetras s.names l := by
  have h : (∃ r, readBlocks ⟨vh, th⟩ s st ([], false) (nextLine f).1 (nextLine f).2 = .ok r) ↔ ∀ l ∈ f.takeWhile isRegion, ∃ b, Region th s.tetras s.names l b := by
    rw [← forall₂_exists]
    constructor
    · rintro ⟨r, e⟩
      exact ⟨r.1.map blockOf, (blocks_iff hw (st := st) f (acc := ([], false))).1 ⟨r, e, by simp⟩⟩
    · rintro ⟨bs, hbs⟩
      obtain ⟨r, e, _⟩ := (blocks_iff hw (st := st) f (acc := ([], false))).2 hbs
      exact ⟨r, e⟩
  constructor
  · intro e
    apply Classical.byContradiction
    intro hn
    obtain ⟨r, hr⟩ := h.2 fun l hl => by
      apply Classical.byContradiction
      intro h1
      exact hn ⟨l, hl, badRegion_iff.2 h1⟩
    rw [hr] at e
    cases e
  · rintro ⟨l, hl, hb⟩
    rcases blocks_cases ⟨vh, th⟩ s st (nextLine f).2 (nextLine f).1 ([], false) with hr | e
    · exact absurd (h.1 hr l hl) (badRegion_iff.1 hb)
    · exact e

/-! ## Whole files -/

/-- The surfaces are read when all their lines are fine. -/
theorem surfaces_ok {s : Solid D} (hnb : s.nbUnique ≤ s.points.length) {ss : List (Str × List File)} : ∀ {st : RState},
    (∃ st', Res.foldM' (runSurface s) st ss = .ok st') ↔ ∀ x ∈ items ss, Fine s.nbUnique x := by
  induction ss with
  | nil => intro st; simp [items]
  | cons e0 ss ih =>
    obtain ⟨l, fs⟩ := e0
    intro st
    have hi : items ((l, fs) :: ss) = .surface l :: (fs.flatten.map .triangle ++ items ss) := by simp [items]
    rw [foldM'_cons, hi]
    constructor
    · rintro ⟨st', e⟩
      obtain ⟨st1, e1, e⟩ := bind_eq_ok.1 e
      unfold runSurface at e1
      obtain ⟨w, e2, e1⟩ := bind_eq_ok.1 e1
      intro x hx
      rcases List.mem_cons.1 hx with rfl | hx
      · exact (List.getElem?_eq_some_iff.1 (index_eq_ok.1 e2)).1
      · rcases List.mem_append.1 hx with hx | hx
        · exact faces_fine e1 x hx
        · exact ih.1 ⟨st', e⟩ x hx
    · intro h
      have h1 : 1 < (split l).length := h (.surface l) (by simp)
      obtain ⟨st1, e1⟩ := fine_faces hnb { st with horizons := st.horizons ++ [readName ((split l).drop 1)] } (fs := fs)
        fun x hx => h x (List.mem_cons_of_mem _ (List.mem_append_left _ hx))
      obtain ⟨st', e⟩ := ih (st := st1) |>.2 fun x hx => h x (List.mem_cons_of_mem _ (List.mem_append_right _ hx))
      refine ⟨st', ?_⟩
      rw [show runSurface s st (l, fs) = .ok st1 by unfold runSurface; rw [index_of_lt h1, ok_bind]; exact e1, ok_bind, e]

theorem tetras_ub' {h : PropHeader D} {f : File} {s : Solid D} (hf : Filled h s.tattrs s.tetras.length) :
    readTetras h.esizes s (nextLine f).1 (nextLine f).2 = .ub ↔ BadTetras D h.esizes s.points.length f := by
  cases f with
  | nil =>
    have hs : Short IsIndex (split []) 1 4 := ⟨by decide, by simp [show split [] = [] from rfl]⟩
    constructor
    · intro _
      exact .here (.inl hs)
    · intro _
      show readTetras h.esizes s [] [] = .ub
      rw [readTetras, (tetra_ub hf).2 (.inl hs)]
      rfl
  | cons l f => exact tetras_ub _ (Nat.le_refl _) hf

/-- Up to the headers of the properties, the file is read; `body` are the lines after them. -/
def Headed (f : File) (crs : Crs) (vh th : PropHeader D) (body : File) : Prop :=
  ∃ title f1 name f2 f3 f4, First cs!"GOCAD LightTSolid" f title f1 ∧ readHeader f1 = .ok (name, f2) ∧ readCrs f2 = .ok (crs, f3) ∧
    Header [] f3 vh f4 ∧ Header cs!"TETRA_" f4 th body

/-- Reading the coordinate system or a header of properties has undefined behaviour (C148 and C162 say when). -/
def BadHeader (D : Type) [Num D] (f : File) : Prop :=
  ∃ title f1 name f2, First cs!"GOCAD LightTSolid" f title f1 ∧ readHeader f1 = .ok (name, f2) ∧ (readCrs f2 = .ub ∨
    ∃ crs f3, readCrs f2 = .ok (crs, f3) ∧ ((readPropHeader [] f3 : Res (PropHeader D × File)) = .ub ∨
      ∃ (vh : PropHeader D) (f4 : File), Header [] f3 vh f4 ∧ (readPropHeader cs!"TETRA_" f4 : Res (PropHeader D × File)) = .ub))

/-- The line of a vertex has undefined behaviour. -/
def BadPoint (D : Type) [Num D] (f : File) : Prop :=
  ∃ (crs : Crs) (vh th : PropHeader D) (body : File) (v : Str) (after : File), Headed f crs vh th body ∧ FirstVertex body v after ∧
    BadVertices (D := D) crs.zPos vh.esizes [] 0 (v :: after.takeWhile hasVrtx)

/-- The vertices are read, from the lines `ls`; `rest` are the lines after them and after their indicators. -/
def Pointed (f : File) (th : PropHeader D) (ls rest : File) : Prop :=
  ∃ (crs : Crs) (vh : PropHeader D) (body : File) (v : Str) (after : File) (ps : List (Pt D)) (ids : List Nat), Headed f crs vh th body ∧
    FirstVertex body v after ∧ ls = v :: after.takeWhile hasVrtx ∧ Vertices crs.zPos vh.esizes [] 0 ls ps ids ∧ Skip cs!"VERTEX" (after.dropWhile hasVrtx) rest

/-- The lines of a tetrahedron have undefined behaviour. -/
def BadSolid (D : Type) [Num D] (f : File) : Prop :=
  ∃ (th : PropHeader D) (ls rest : File), Pointed f th ls rest ∧ BadTetras D th.esizes ls.length rest

/-- The solid is read, with `nb` different vertices, and the surfaces after the line `MODEL` have the lines `ss`; `rest` are the lines after them. -/
def Solved (f : File) (th : PropHeader D) (ts : List (List Nat)) (names : List Str) (nb : Nat) (ss : List (Str × List File)) (rest : File) : Prop :=
  ∃ (ls r r1 r2 : File) (m : Str) (r3 : File), Pointed f th ls r ∧ Tetras D th.esizes ls.length r ts names r1 ∧ Skip cs!"TETRA" r1 r2 ∧ First cs!"MODEL" r2 m r3 ∧
    Surfaces r3 ss rest ∧ nb = own ls

/-- A line of the surfaces has undefined behaviour. -/
def BadSurface (D : Type) [Num D] (f : File) : Prop :=
  ∃ (th : PropHeader D) (ts : List (List Nat)) (names : List Str) (nb : Nat) (ss : List (Str × List File)) (rest : File), Solved f th ts names nb ss rest ∧
    FirstBad (Fine nb) (Wrong nb) (items ss)

/-- The line of a region has undefined behaviour. -/
def BadBlock (D : Type) [Num D] (f : File) : Prop :=
  ∃ (th : PropHeader D) (ts : List (List Nat)) (names : List Str) (nb : Nat) (ss : List (Str × List File)) (rest : File), Solved f th ts names nb ss rest ∧
    (∀ x ∈ items ss, Fine nb x) ∧ ∃ l ∈ rest.takeWhile isRegion, BadRegion th ts names l

theorem model_cases {s : Solid D} {f : File} : (∃ m g, First cs!"MODEL" f m g) ∨ readSurfaces s (nextLine f).1 (nextLine f).2 = .throw := by
  cases f with
  | nil => exact .inr rfl
  | cons x f =>
    cases hx : startsWith x cs!"MODEL" with
    | true => exact .inl ⟨x, f, [], rfl, hx, by simp⟩
    | false =>
      unfold readSurfaces
      rw [show (nextLine (x :: f)).1 = x from rfl, if_neg (by rw [hx]; exact Bool.false_ne_true), show (nextLine (x :: f)).2 = f from rfl]
      cases h : gotoKeyword cs!"MODEL" f with
      | ok r =>
        obtain ⟨pre, h1, h2, h3⟩ := goto_iff.1 h
        refine .inl ⟨r.1, r.2, x :: pre, by rw [List.cons_append, ← h1], h2, ?_⟩
        intro z hz
        rcases List.mem_cons.1 hz with rfl | hz
        · exact hx
        · exact h3 z hz
      | throw => exact .inr rfl
      | ub => exact absurd h (gotoKeyword_ne _ _).1
      | diverge => exact absurd h (gotoKeyword_ne _ _).2

/-- Reading what follows the headers of the properties. -/
def loadBody (crs : Crs) (vh th : PropHeader D) (name : Option Str) (f : File) : Res (Loaded D) := do
  let (s, l, f) ← readVertices crs.zPos vh.esizes (noSolid vh th) f
  let (l, f) ← skipSection cs!"VERTEX" l f
  let (s, l, f) ← readTetras th.esizes s l f
  let (l, f) ← skipSection cs!"TETRA" l f
  let (st, l, f) ← readSurfaces s l f
  let (blocks, inspect) ← readBlocks ⟨vh, th⟩ s st ([], false) l f
  pure { name, solid := s, horizons := st.horizons, surfaces := st.surfaces, blocks, inspect := st.inspect || inspect }

/-- Reading the lines after the tetrahedra. -/
def loadModel (vh th : PropHeader D) (name : Option Str) (s : Solid D) (l : Str) (f : File) : Res (Loaded D) := do
  let (l, f) ← skipSection cs!"TETRA" l f
  let (st, l, f) ← readSurfaces s l f
  let (blocks, inspect) ← readBlocks ⟨vh, th⟩ s st ([], false) l f
  pure { name, solid := s, horizons := st.horizons, surfaces := st.surfaces, blocks, inspect := st.inspect || inspect }

theorem model_ends {vh th : PropHeader D} {name : Option Str} {s : Solid D} {f : File} : loadModel vh th name s (nextLine f).1 (nextLine f).2 ≠ .diverge := by
  intro e
  unfold loadModel at e
  rcases bind_diverge.1 e with e | ⟨⟨l, g⟩, e1, e⟩
  · exact (skip_ne _ _ _).2 e
  obtain ⟨bm, _, hn⟩ := skip_fwd e1
  have hn1 : l = (nextLine bm).1 := congrArg Prod.fst hn
  have hn2 : g = (nextLine bm).2 := congrArg Prod.snd hn
  dsimp only at e
  rw [hn1, hn2] at e
  rcases bind_diverge.1 e with e | ⟨⟨st, l, g⟩, _, e⟩
  · rcases model_cases (s := s) (f := bm) with ⟨m, sl, hm⟩ | h
    · obtain ⟨ss, rest, hss⟩ := surfaces_total sl.length sl (Nat.le_refl _)
      have hbm : bm = (nextLine bm).1 :: (nextLine bm).2 := by
        cases bm with
        | nil => obtain ⟨pre, h1, _⟩ := hm; simp at h1
        | cons a b => rfl
      rw [hbm] at hm
      rw [readSurfaces_eq s hm hss] at e
      rcases bind_diverge.1 e with e | ⟨_, _, e⟩
      · exact surfaces_end _ _ e
      · simp at e
    · rw [h] at e
      cases e
  dsimp only at e
  rcases bind_diverge.1 e with e | ⟨_, _, e⟩
  · rcases blocks_cases ⟨vh, th⟩ s st g l ([], false) with ⟨_, h⟩ | h <;> rw [h] at e <;> cases e
  · simp at e

theorem model_ub {vh th : PropHeader D} {name : Option Str} {s : Solid D} {f : File} (hw : Whole vh th s) (hnb : s.nbUnique ≤ s.points.length) :
    loadModel vh th name s (nextLine f).1 (nextLine f).2 = .ub ↔ ∃ r2 m r3 ss rest, Skip cs!"TETRA" f r2 ∧ First cs!"MODEL" r2 m r3 ∧ Surfaces r3 ss rest ∧
      (FirstBad (Fine s.nbUnique) (Wrong s.nbUnique) (items ss) ∨
        ((∀ x ∈ items ss, Fine s.nbUnique x) ∧ ∃ l ∈ rest.takeWhile isRegion, BadRegion th s.tetras s.names l)) := by
  have hcons : ∀ {bm m sl : File} {k : Str}, First cs!"MODEL" bm k sl → bm = (nextLine bm).1 :: (nextLine bm).2 := by
    intro bm m sl k hm
    cases bm with
    | nil => obtain ⟨pre, h1, _⟩ := hm; simp at h1
    | cons a b => rfl
  unfold loadModel
  constructor
  · intro e
    rcases bind_ub.1 e with e | ⟨⟨l, g⟩, e1, e⟩
    · exact absurd e (skip_ne _ _ _).1
    obtain ⟨bm, hsk, hn⟩ := skip_fwd e1
    have hn1 : l = (nextLine bm).1 := congrArg Prod.fst hn
    have hn2 : g = (nextLine bm).2 := congrArg Prod.snd hn
    dsimp only at e
    rw [hn1, hn2] at e
    rcases model_cases (s := s) (f := bm) with ⟨m, sl, hm⟩ | h
    · obtain ⟨ss, rest, hss⟩ := surfaces_total sl.length sl (Nat.le_refl _)
      refine ⟨bm, m, sl, ss, rest, hsk, hm, hss, ?_⟩
      rw [readSurfaces_eq s (by rw [← hcons (m := []) hm]; exact hm) hss, bind_assoc'] at e
      rcases bind_ub.1 e with e | ⟨st, e2, e⟩
      · exact .inl ((surfaces_ub hnb).1 e)
      · rw [ok_bind] at e
        dsimp only at e
        rcases bind_ub.1 e with e | ⟨_, _, e⟩
        · exact .inr ⟨(surfaces_ok hnb).1 ⟨st, e2⟩, (blocks_ub hw rest).1 e⟩
        · simp at e
    · rw [h] at e
      cases e
  · rintro ⟨bm, m, sl, ss, rest, hsk, hm, hss, h⟩
    rw [skip_bwd hsk, ok_bind]
    show (readSurfaces s (nextLine bm).1 (nextLine bm).2 >>= _) = _
    rw [readSurfaces_eq s (by rw [← hcons (m := []) hm]; exact hm) hss, bind_assoc']
    rcases h with h | ⟨h1, h2⟩
    · rw [(surfaces_ub hnb).2 h]
      rfl
    · obtain ⟨st, e2⟩ := (surfaces_ok hnb (st := {})).2 h1
      rw [e2, ok_bind, ok_bind]
      show (readBlocks ⟨vh, th⟩ s st ([], false) (nextLine rest).1 (nextLine rest).2 >>= _) = _
      rw [(blocks_ub hw rest).2 h2]
      rfl

theorem load_eq (f : File) : (loadLso f : Res (Loaded D)) = gotoKeyword cs!"GOCAD LightTSolid" f >>= fun r1 => readHeader r1.2 >>= fun r2 => readCrs r2.2 >>= fun r3 =>
    (readPropHeader [] r3.2 : Res (PropHeader D × File)) >>= fun r4 => (readPropHeader cs!"TETRA_" r4.2 : Res (PropHeader D × File)) >>= fun r5 =>
      loadBody r3.1 r4.1 r5.1 r2.1 r5.2 := rfl

theorem body_eq (crs : Crs) (vh th : PropHeader D) (name : Option Str) (f : File) : loadBody crs vh th name f =
    readVertices crs.zPos vh.esizes (noSolid vh th) f >>= fun r1 => skipSection cs!"VERTEX" r1.2.1 r1.2.2 >>= fun r2 => readTetras th.esizes r1.1 r2.1 r2.2 >>= fun r3 =>
      loadModel vh th name r3.1 r3.2.1 r3.2.2 := rfl

theorem tetras_fwd' {h : PropHeader D} {f : File} {s s' : Solid D} {r : Str × File} (hf : Filled h s.tattrs s.tetras.length)
    (e : readTetras h.esizes s (nextLine f).1 (nextLine f).2 = .ok (s', r)) :
    ∃ ts names rest, Tetras D h.esizes s.points.length f ts names rest ∧ Added h s s' ts names ∧ r = nextLine rest := by
  cases f with
  | nil => exact absurd e readTetras_nil
  | cons l f => exact tetras_fwd _ (Nat.le_refl _) hf e

/-- What the solid is after its vertices and tetrahedra. -/
theorem solid_whole {vh th : PropHeader D} {s s' : Solid D} {ps : List (Pt D)} {ids : List Nat} {ls : File} {up : Bool} {ts : List (List Nat)} {names : List Str} {r r1 : File}
    (hv : Vertices up vh.esizes [] 0 ls ps ids) (hg : Grown vh (noSolid vh th) s ps ids (own ls)) (ht : Tetras D th.esizes ls.length r ts names r1) (ha : Added th s s' ts names) :
    Whole vh th s' ∧ s'.nbUnique = own ls ∧ s'.nbUnique ≤ s'.points.length ∧ s'.tetras = ts ∧ s'.names = names := by
  have hpl := vertices_length hv
  have hsl : s.points.length = ls.length := by rw [hg.points]; simpa [noSolid] using hpl
  have hnb : s'.nbUnique = own ls := by rw [ha.nb, hg.nb]; exact Nat.zero_add _
  have htt : s'.tetras = ts := by rw [ha.tetras, hg.tetras]; rfl
  have hnn : s'.names = names := by rw [ha.names, hg.names]; rfl
  refine ⟨⟨by rw [ha.vattrs, ha.points]; exact hg.filled, ha.filled, by rw [htt, ha.points, hsl]; exact tetras_inside ht⟩, hnb, ?_, htt, hnn⟩
  rw [hnb, ha.points, hsl]
  exact own_le _

theorem load_ub_fwd (f : File) : (loadLso f : Res (Loaded D)) = .ub → BadHeader D f ∨
    ∃ (crs : Crs) (vh th : PropHeader D) (name : Option Str) (body : File), Headed f crs vh th body ∧ Filled vh (vh.names.map fun _ => []) 0 ∧
      Filled th (th.names.map fun _ => []) 0 ∧ loadBody crs vh th name body = .ub := by
  rw [load_eq]
  · intro e
    rcases bind_ub.1 e with e | ⟨⟨title, f1⟩, e1, e⟩
    · exact absurd e (gotoKeyword_ne _ _).1
    rcases bind_ub.1 e with e | ⟨⟨name, f2⟩, e2, e⟩
    · exact absurd e (GocadUb.readHeader_ne_ub _)
    rcases bind_ub.1 e with e | ⟨⟨crs, f3⟩, e3, e⟩
    · exact .inl ⟨title, f1, name, f2, goto_iff.1 e1, e2, .inl e⟩
    rcases bind_ub.1 e with e | ⟨⟨vh, f4⟩, e4, e⟩
    · exact .inl ⟨title, f1, name, f2, goto_iff.1 e1, e2, .inr ⟨crs, f3, e3, .inl e⟩⟩
    have h4 := (header_iff (by simp)).1 e4
    rcases bind_ub.1 e with e | ⟨⟨th, f5⟩, e5, e⟩
    · exact .inl ⟨title, f1, name, f2, goto_iff.1 e1, e2, .inr ⟨crs, f3, e3, .inr ⟨vh, f4, h4, e⟩⟩⟩
    have h5 := (header_iff (by decide)).1 e5
    exact .inr ⟨crs, vh, th, name, f5, ⟨title, f1, name, f2, f3, f4, goto_iff.1 e1, e2, e3, h4, h5⟩, header_lengths e4, header_lengths e5, e⟩

theorem load_ub_bwd (f : File) (h : BadHeader D f ∨ ∃ (crs : Crs) (vh th : PropHeader D) (body : File), Headed f crs vh th body ∧
    ∀ name, loadBody crs vh th name body = .ub) : (loadLso f : Res (Loaded D)) = .ub := by
  rw [load_eq]
  rcases h with ⟨title, f1, name, f2, h1, h2, h3⟩ | ⟨crs, vh, th, body, ⟨title, f1, name, f2, f3, f4, h1, h2, h3, h4, h5⟩, e⟩
  · rw [goto_iff.2 h1, ok_bind, h2, ok_bind]
    rcases h3 with h3 | ⟨crs, f3, h3, h4⟩
    · rw [h3]; rfl
    · rw [h3, ok_bind]
      rcases h4 with h4 | ⟨vh, f4, h4, h5⟩
      · rw [h4]; rfl
      · rw [(header_iff (by simp)).2 h4, ok_bind, h5]; rfl
  · rw [goto_iff.2 h1, ok_bind, h2, ok_bind, h3, ok_bind, (header_iff (by simp)).2 h4, ok_bind, (header_iff (by decide)).2 h5, ok_bind]
    exact e name

/-- **C169, undefined behaviour**: exactly the files with such a header, vertex, tetrahedron, surface or region. -/
theorem lso_ub_iff (f : File) : (loadLso f : Res (Loaded D)) = .ub ↔ BadHeader D f ∨ BadPoint D f ∨ BadSolid D f ∨ BadSurface D f ∨ BadBlock D f := by
  constructor
  · intro e
    rcases load_ub_fwd f e with h | ⟨crs, vh, th, name, body, hh, hv0, ht0, e⟩
    · exact .inl h
    right
    rw [body_eq] at e
    have hf0 : Filled vh (noSolid vh th).vattrs (noSolid vh th).points.length := by simpa [noSolid] using hv0
    rcases bind_ub.1 e with e | ⟨⟨s, l, g⟩, e1, e⟩
    · obtain ⟨v, after, h1, h2⟩ := (vertices_ub hf0).1 e
      exact .inl ⟨crs, vh, th, body, v, after, hh, h1, h2⟩
    obtain ⟨v, after, ps, ids, hfv, hvs, hg, hn⟩ := vertices_fwd hf0 e1
    have hn1 : l = (nextLine (after.dropWhile hasVrtx)).1 := congrArg Prod.fst hn
    have hn2 : g = (nextLine (after.dropWhile hasVrtx)).2 := congrArg Prod.snd hn
    dsimp only at e
    rw [hn1, hn2] at e
    rcases bind_ub.1 e with e | ⟨⟨l1, g1⟩, e2, e⟩
    · exact absurd e (skip_ne _ _ _).1
    obtain ⟨r, hsk, hn⟩ := skip_fwd e2
    have hp : Pointed f th (v :: after.takeWhile hasVrtx) r := ⟨crs, vh, body, v, after, ps, ids, hh, hfv, rfl, hvs, hsk⟩
    have hn1 : l1 = (nextLine r).1 := congrArg Prod.fst hn
    have hn2 : g1 = (nextLine r).2 := congrArg Prod.snd hn
    dsimp only at e
    rw [hn1, hn2] at e
    have htf : Filled th s.tattrs s.tetras.length := by rw [hg.tattrs, hg.tetras]; simpa [noSolid] using ht0
    have hsl : s.points.length = (v :: after.takeWhile hasVrtx).length := by rw [hg.points]; simpa [noSolid] using vertices_length hvs
    rcases bind_ub.1 e with e | ⟨⟨s', l2, g2⟩, e3, e⟩
    · have := (tetras_ub' htf).1 e
      rw [hsl] at this
      exact .inr (.inl ⟨th, _, r, hp, this⟩)
    obtain ⟨ts, names, r1, hts, ha, hn⟩ := tetras_fwd' htf e3
    rw [hsl] at hts
    obtain ⟨hw, hnb, hle, htt, hnn⟩ := solid_whole hvs hg hts ha
    have hn1 : l2 = (nextLine r1).1 := congrArg Prod.fst hn
    have hn2 : g2 = (nextLine r1).2 := congrArg Prod.snd hn
    dsimp only at e
    rw [hn1, hn2] at e
    obtain ⟨r2, m, r3, ss, rest, k1, k2, k3, k⟩ := (model_ub hw hle).1 e
    rw [hnb, htt, hnn] at k
    have hs : Solved f th ts names (own (v :: after.takeWhile hasVrtx)) ss rest := ⟨_, r, r1, r2, m, r3, hp, hts, k1, k2, k3, rfl⟩
    rcases k with k | ⟨k, k'⟩
    · exact .inr (.inr (.inl ⟨th, ts, names, _, ss, rest, hs, k⟩))
    · exact .inr (.inr (.inr ⟨th, ts, names, _, ss, rest, hs, k, k'⟩))
  · have lens : ∀ {crs : Crs} {vh th : PropHeader D} {body : File}, Headed f crs vh th body →
        Filled vh (vh.names.map fun _ => []) 0 ∧ Filled th (th.names.map fun _ => []) 0 := by
      rintro crs vh th body ⟨_, _, _, _, _, _, _, _, _, h4, h5⟩
      exact ⟨header_lengths ((header_iff (by simp)).2 h4), header_lengths ((header_iff (by decide)).2 h5)⟩
    have points : ∀ {th : PropHeader D} {ls r : File}, Pointed f th ls r → ∃ crs vh body s ps ids up, Headed f crs vh th body ∧ Vertices up vh.esizes [] 0 ls ps ids ∧
        Grown vh (noSolid vh th) s ps ids (own ls) ∧ Filled th s.tattrs s.tetras.length ∧ s.points.length = ls.length ∧
          ∀ name, loadBody crs vh th name body = readTetras th.esizes s (nextLine r).1 (nextLine r).2 >>= fun r3 => loadModel vh th name r3.1 r3.2.1 r3.2.2 := by
      rintro th ls r ⟨crs, vh, body, v, after, ps, ids, hh, hfv, rfl, hvs, hsk⟩
      obtain ⟨hv0, ht0⟩ := lens hh
      obtain ⟨s, e, hg⟩ := vertices_bwd (s := noSolid vh th) (by simpa [noSolid] using hv0) hfv hvs
      refine ⟨crs, vh, body, s, ps, ids, _, hh, hvs, hg, by rw [hg.tattrs, hg.tetras]; simpa [noSolid] using ht0, ?_, ?_⟩
      · rw [hg.points]
        simpa [noSolid] using vertices_length hvs
      · intro name
        rw [body_eq, e, ok_bind]
        dsimp only
        rw [skip_bwd hsk, ok_bind]
    have solid : ∀ {th : PropHeader D} {ts : List (List Nat)} {names : List Str} {nb : Nat} {ss : List (Str × List File)} {rest : File},
        Solved f th ts names nb ss rest → ∃ crs vh body s' r1, Headed f crs vh th body ∧ Whole vh th s' ∧ s'.nbUnique = nb ∧ s'.nbUnique ≤ s'.points.length ∧
          s'.tetras = ts ∧ s'.names = names ∧ (∃ r2 m r3, Skip cs!"TETRA" r1 r2 ∧ First cs!"MODEL" r2 m r3 ∧ Surfaces r3 ss rest) ∧
            ∀ name, loadBody crs vh th name body = loadModel vh th name s' (nextLine r1).1 (nextLine r1).2 := by
      rintro th ts names nb ss rest ⟨ls, r, r1, r2, m, r3, hp, hts, k1, k2, k3, rfl⟩
      obtain ⟨crs, vh, body, s, ps, ids, up, hh, hvs, hg, htf, hsl, he⟩ := points hp
      obtain ⟨s', e, ha⟩ := tetras_bwd hts hsl htf
      obtain ⟨hw, hnb, hle, htt, hnn⟩ := solid_whole hvs hg hts ha
      refine ⟨crs, vh, body, s', r1, hh, hw, hnb, hle, htt, hnn, ⟨r2, m, r3, k1, k2, k3⟩, fun name => ?_⟩
      rw [he, e, ok_bind]
    intro h
    refine load_ub_bwd f (h.imp id ?_)
    rintro (⟨crs, vh, th, body, v, after, hh, h1, h2⟩ | ⟨th, ls, r, hp, hb⟩ | ⟨th, ts, names, nb, ss, rest, hs, hb⟩ | ⟨th, ts, names, nb, ss, rest, hs, hb⟩)
    · obtain ⟨hv0, ht0⟩ := lens hh
      refine ⟨crs, vh, th, body, hh, fun name => ?_⟩
      rw [body_eq, (vertices_ub (s := noSolid vh th) (by simpa [noSolid] using hv0)).2 ⟨v, after, h1, h2⟩]
      rfl
    · obtain ⟨crs, vh, body, s, ps, ids, up, hh, hvs, hg, htf, hsl, he⟩ := points hp
      obtain ⟨hv0, ht0⟩ := lens hh
      refine ⟨crs, vh, th, body, hh, fun name => ?_⟩
      rw [← hsl] at hb
      rw [he, (tetras_ub' htf).2 hb]
      rfl
    · obtain ⟨crs, vh, body, s', r1, hh, hw, rfl, hle, rfl, rfl, ⟨r2, m, r3, k1, k2, k3⟩, he⟩ := solid hs
      obtain ⟨hv0, ht0⟩ := lens hh
      refine ⟨crs, vh, th, body, hh, fun name => ?_⟩
      rw [he]
      exact (model_ub hw hle).2 ⟨r2, m, r3, ss, rest, k1, k2, k3, .inl hb⟩
    · obtain ⟨crs, vh, body, s', r1, hh, hw, rfl, hle, rfl, rfl, ⟨r2, m, r3, k1, k2, k3⟩, he⟩ := solid hs
      obtain ⟨hv0, ht0⟩ := lens hh
      refine ⟨crs, vh, th, body, hh, fun name => ?_⟩
      rw [he]
      exact (model_ub hw hle).2 ⟨r2, m, r3, ss, rest, k1, k2, k3, .inr hb⟩

/-- **C169, loading ends** for every file given as lines. -/
theorem lso_ends (f : File) : (loadLso f : Res (Loaded D)) ≠ .diverge := by
  rw [load_eq]
  intro e
  rcases bind_diverge.1 e with e | ⟨⟨title, f1⟩, e1, e⟩
  · exact (gotoKeyword_ne _ _).2 e
  rcases bind_diverge.1 e with e | ⟨⟨name, f2⟩, e2, e⟩
  · exact (readHeader_fwd _).1 e
  rcases bind_diverge.1 e with e | ⟨⟨crs, f3⟩, e3, e⟩
  · exact (readCrs_fwd _).1 e
  rcases bind_diverge.1 e with e | ⟨⟨vh, f4⟩, e4, e⟩
  · exact (readPropHeader_fwd _ _).1 e
  rcases bind_diverge.1 e with e | ⟨⟨th, body⟩, e5, e⟩
  · exact (readPropHeader_fwd _ _).1 e
  have hf0 : Filled vh (noSolid vh th).vattrs (noSolid vh th).points.length := by simpa [noSolid] using header_lengths e4
  dsimp only at e
  rw [body_eq] at e
  rcases bind_diverge.1 e with e | ⟨⟨s, l, g⟩, e1, e⟩
  · exact vertices_end hf0 e
  obtain ⟨v, after, ps, ids, hfv, hvs, hg, hn⟩ := vertices_fwd hf0 e1
  have htf : Filled th s.tattrs s.tetras.length := by rw [hg.tattrs, hg.tetras]; simpa [noSolid] using header_lengths e5
  rcases bind_diverge.1 e with e | ⟨⟨l1, g1⟩, e2, e⟩
  · exact (skip_ne _ _ _).2 e
  rcases bind_diverge.1 e with e | ⟨⟨s', l2, g2⟩, e3, e⟩
  · exact tetras_end _ (Nat.le_refl _) htf e
  obtain ⟨ts, names, r1, hts, ha, hn⟩ := tetras_fwd _ (Nat.le_refl _) htf e3
  have hn1 : l2 = (nextLine r1).1 := congrArg Prod.fst hn
  have hn2 : g2 = (nextLine r1).2 := congrArg Prod.snd hn
  dsimp only at e
  rw [hn1, hn2] at e
  exact model_ends e

/-- The property: a file that does not load is refused with an exception. -/
def Refused (D : Type) [Num D] : Prop := ∀ f : File, (∃ L : Loaded D, loadLso f = .ok L) ∨ (loadLso f : Res (Loaded D)) = .throw

/-- **C169 in part**: the property holds for the files with no such header, vertex, tetrahedron, surface or region. -/
theorem refused_partial (f : File) (h1 : ¬BadHeader D f) (h2 : ¬BadPoint D f) (h3 : ¬BadSolid D f) (h4 : ¬BadSurface D f) (h5 : ¬BadBlock D f) :
    (∃ L : Loaded D, loadLso f = .ok L) ∨ (loadLso f : Res (Loaded D)) = .throw := by
  cases h : (loadLso f : Res (Loaded D)) with
  | ok m => exact .inl ⟨m, rfl⟩
  | throw => exact .inr rfl
  | ub => exact absurd ((lso_ub_iff f).1 h) (by rintro (h | h | h | h | h) <;> contradiction)
  | diverge => exact absurd h (lso_ends f)

/-! ## Tests -/

/-- What loading a file does. -/
def outcome (f : File) : Nat :=
  match (loadLso f : Res (Loaded Int)) with
  | .ok _ => 0
  | .throw => 1
  | .ub => 2
  | .diverge => 3

/-- A file with the given vertices, tetrahedra and model. -/
def file (vertices tetras model : File) : File :=
  [cs!"GOCAD LightTSolid 1", cs!"HEADER {", cs!"}"] ++ vertices ++ tetras ++ model

def four : File := [cs!"VRTX 1 0 0 0", cs!"VRTX 2 1 0 0", cs!"VRTX 3 0 1 0", cs!"VRTX 4 0 0 1"]
def tetra : File := [cs!"TETRA 1 2 3 4", cs!"# CTETRA b"]

/-- The property fails: the number of a triangle is that of a vertex that does not exist. -/
theorem refused_fails : ¬Refused Int := by
  intro h
  have e : outcome (file four tetra [cs!"MODEL", cs!"SURFACE s", cs!"TFACE 1", cs!"KEYVERTICES 1 2 3", cs!"TRGL 1 2 5"]) = 2 := by decide +kernel
  unfold outcome at e
  rcases h (file four tetra [cs!"MODEL", cs!"SURFACE s", cs!"TFACE 1", cs!"KEYVERTICES 1 2 3", cs!"TRGL 1 2 5"]) with ⟨m, hm⟩ | hm <;> rw [hm] at e <;> cases e

/-- Tests on files that load: a model without surfaces, a shared vertex, one with a surface and a region. -/
example : [outcome (file four tetra [cs!"MODEL"]), outcome (file (four ++ [cs!"SHAREDVRTX 5 1"]) tetra [cs!"MODEL"]),
    outcome (file four tetra [cs!"MODEL", cs!"SURFACE s", cs!"TFACE 1", cs!"KEYVERTICES 1 2 3", cs!"TRGL 1 2 3", cs!"MODEL_REGION b +1"])] = [0, 0, 0] := by decide +kernel

/-- Tests: vertices that lack words or refer to a vertex that does not exist or has no line of its own. -/
example : [[cs!"VRTX 1 0 0"], [cs!"VRTX"], four ++ [cs!"SHAREDVRTX 5"], four ++ [cs!"SHAREDVRTX 5 6"], four ++ [cs!"SHAREDVRTX 5 1", cs!"SHAREDVRTX 6 5"]].map
    (fun v => outcome (file v tetra [cs!"MODEL"])) = [2, 2, 2, 2, 2] := by decide +kernel

/-- Tests: tetrahedra that lack words, a name or a vertex, and none at all. -/
example : [[cs!"TETRA 1 2 3", cs!"# CTETRA b"], [cs!"TETRA 1 2 3 4", cs!"#"], [cs!"TETRA 1 2 3 5", cs!"# CTETRA b"], [], tetra ++ [cs!"TETRA"]].map
    (fun t => outcome (file four t [cs!"MODEL"])) = [2, 2, 2, 2, 2] := by decide +kernel

/-- Tests: a surface and a region without name, a triangle that lacks a word. -/
example : [[cs!"SURFACE"], [cs!"MODEL_REGION"], [cs!"SURFACE s", cs!"TFACE", cs!"K", cs!"TRGL 1 2"]].map
    (fun m => outcome (file four tetra (cs!"MODEL" :: m))) = [2, 2, 2] := by decide +kernel

/-- Tests on files that are refused: no title, no vertex, words that are not numbers, no model. -/
example : [outcome four, outcome (file [] tetra []), outcome (file [cs!"VRTX 1 x"] tetra [cs!"MODEL"]), outcome (file four [cs!"TETRA 1 x"] [cs!"MODEL"]),
    outcome (file (four ++ [cs!"SHAREDVRTX 5 x"]) tetra [cs!"MODEL"]), outcome (file four tetra []),
    outcome (file four tetra [cs!"MODEL", cs!"SURFACE s", cs!"TFACE", cs!"K", cs!"TRGL x"])] = [1, 1, 1, 1, 1, 1, 1] := by decide +kernel

end Verif.Props.LsoRefused
