import Verif.Props.FemFeatures

/-!
# C57: exactly when the materials of FEFLOW files are readable
-/

namespace Verif.Props.FemMaterial

open Verif Verif.Fem Verif.Props.FemRanges Verif.Props.FemValues Verif.Props.FemFeatures

variable {D : Type}

/-! ## Specification -/

/-- Lines made of pieces, each followed by a line end or not; `a` is what is on the line already. -/
def cut : List Str → List (List Str × Bool) → List (List Str)
  | a, [] => if a = [] then [] else [a]
  | a, (w, true) :: ps => (a ++ w) :: cut [] ps
  | a, (w, false) :: ps => cut (a ++ w) ps

/-- Whether a line end follows each of the `n` lines of a value, when it is the last one of its map or not. -/
def ends (last : Bool) (n : Nat) : List Bool :=
  if last then List.replicate n false else if n = 1 then [true] else List.replicate (n - 1) true ++ List.replicate (min n 1) false

/-- The words of the lines of a value. -/
def words [Num D] (max : Nat) (v : D) (ids : List Nat) : List (List Str) := (formatRangeChunks max ids).map fun c => Num.fmt v :: split c

/-- The pieces of a material. -/
def pieces [Num D] (max : Nat) : List (D × List Nat) → List (List Str × Bool)
  | [] => []
  | (v, ids) :: es => (words max v ids).zip (ends es.isEmpty (formatRangeChunks max ids).length) ++ pieces max es

/-! ## Text of pieces -/

/-- The text of pieces. -/
def pieceText : List (Str × Bool) → Str
  | [] => cs!" "
  | (t, b) :: ps => t ++ (if b then cs!"\n" else []) ++ pieceText ps

/-- A piece: it begins with a blank and is not blank. -/
def Piece (t : Str) : Prop := (∃ r, t = ' ' :: r) ∧ Line t

theorem textLines_blank {a : Str} (h : '\n' ∉ a) : (textLines a).map split = if split a = [] then [] else [split a] := by
  unfold textLines
  rw [linesOf_line h]
  by_cases hs : split a = []
  · simp [hs]
  · simp [hs]

theorem pieceText_cut (ps : List (Str × Bool)) (h : ∀ p ∈ ps, Piece p.1) (a : Str) (ha : '\n' ∉ a) :
    (textLines (a ++ pieceText ps)).map split = cut (split a) (ps.map fun p => (split p.1, p.2)) := by
  induction ps generalizing a with
  | nil =>
    have e : split (a ++ cs!" ") = split a := by rw [split_append_space a []]; simp [split]
    rw [pieceText, textLines_blank, e]
    · rfl
    · intro hm
      rcases List.mem_append.1 hm with hm | hm
      · exact ha hm
      · revert hm; decide
  | cons p ps ih =>
    obtain ⟨t, b⟩ := p
    obtain ⟨⟨r, hr⟩, hn, hs⟩ := h (t, b) (by simp)
    dsimp only at hr hn hs
    have et : split (a ++ t) = split a ++ split t := by
      rw [hr, split_append_space, split_cons_ws rfl]
    have hat : '\n' ∉ a ++ t := by
      intro hm
      rcases List.mem_append.1 hm with hm | hm
      · exact ha hm
      · exact hn hm
    have hps : ∀ p ∈ ps, Piece p.1 := fun p hp => h p (by simp [hp])
    cases b with
    | true =>
      rw [pieceText, if_pos rfl, List.map_cons, cut, ← et]
      have : a ++ (t ++ cs!"\n" ++ pieceText ps) = (a ++ t) ++ '\n' :: ([] ++ pieceText ps) := by simp
      rw [this, textLines_append, List.map_append, ih hps [] (by simp), textLines_line ⟨hat, ?_⟩]
      · rfl
      · rw [et]
        intro e
        exact hs (List.append_eq_nil_iff.1 e).2
    | false =>
      rw [pieceText, if_neg (by decide), List.map_cons, cut, ← et, ← ih hps (a ++ t) hat]
      simp

/-! ## Text of materials -/

theorem piece_value [Num D] [LawfulNum D] {max : Nat} {ids : List Nat} (v : D) {c : Str} (hc : c ∈ formatRangeChunks max ids) :
    Piece (List.replicate 14 ' ' ++ Num.fmt v ++ cs!" " ++ c) ∧
      split (List.replicate 14 ' ' ++ Num.fmt v ++ cs!" " ++ c) = Num.fmt v :: split c := by
  have blanks : ∀ (n : Nat) (s : Str), split (List.replicate n ' ' ++ s) = split s := by
    intro n s
    induction n with
    | zero => rfl
    | succ n ih => rw [List.replicate_succ, List.cons_append, split_cons_ws rfl, ih]
  have e : split (List.replicate 14 ' ' ++ Num.fmt v ++ cs!" " ++ c) = Num.fmt v :: split c := by
    rw [List.append_assoc, List.append_assoc, List.singleton_append, blanks, split_tok_append (LawfulNum.fmt_tok v)]
  refine ⟨⟨⟨List.replicate 13 ' ' ++ Num.fmt v ++ cs!" " ++ c, by simp [List.replicate_succ]⟩, ?_, by rw [e]; simp⟩, e⟩
  intro h
  simp only [List.mem_append] at h
  rcases h with ((h | h) | h) | h
  · exact absurd (List.eq_of_mem_replicate h) (by decide)
  · exact nl_not_mem (LawfulNum.fmt_tok v) h
  · revert h; decide
  · exact chunk_toks c hc h

/-- The text of the lines of a value. -/
def textOf [Num D] (v : D) (c : Str) : Str := List.replicate 14 ' ' ++ Num.fmt v ++ cs!" " ++ c

/-- The pieces of a material, as texts. -/
def textPieces [Num D] (max : Nat) : List (D × List Nat) → List (Str × Bool)
  | [] => []
  | (v, ids) :: es => ((formatRangeChunks max ids).map (textOf v)).zip (ends es.isEmpty (formatRangeChunks max ids).length) ++ textPieces max es

theorem pieceText_false (ts : List Str) (ps : List (Str × Bool)) :
    pieceText (ts.zip (List.replicate ts.length false) ++ ps) = ts.flatten ++ pieceText ps := by
  induction ts with
  | nil => rfl
  | cons t ts ih =>
    rw [List.length_cons, List.replicate_succ, List.zip_cons_cons, List.cons_append, pieceText, ih]
    simp

theorem pieceText_sep (ts : List Str) (ps : List (Str × Bool)) (i size : Nat) (h : i + ts.length = size) :
    pieceText (ts.zip (List.replicate (ts.length - 1) true ++ List.replicate (min ts.length 1) false) ++ ps) =
      sepLines size i ts ++ pieceText ps := by
  induction ts generalizing i with
  | nil => rfl
  | cons t ts ih =>
    cases ts with
    | nil =>
      simp only [List.length_cons, List.length_nil] at h
      rw [sepLines, if_neg (by omega)]
      simp [pieceText, sepLines]
    | cons t' ts =>
      have := ih (i + 1) (by simp only [List.length_cons] at h ⊢; omega)
      rw [sepLines, if_pos (by simp only [List.length_cons] at h; omega), List.append_assoc, ← this]
      simp only [List.length_cons, Nat.add_sub_cancel, List.replicate_succ, List.cons_append, List.zip_cons_cons, pieceText]
      simp [List.replicate_succ]

theorem materialText_pieces [Num D] (max : Nat) (es : List (D × List Nat)) : materialText max es = pieceText (textPieces max es) := by
  induction es with
  | nil => rfl
  | cons e es ih =>
    obtain ⟨v, ids⟩ := e
    rw [textPieces]
    cases es with
    | nil =>
      have := pieceText_false ((formatRangeChunks max ids).map (textOf v)) []
      rw [List.length_map] at this
      unfold ends
      rw [List.isEmpty_nil, if_pos rfl, textPieces, this, materialText, materialValue]
      cases formatRangeChunks max ids with
      | nil => rfl
      | cons c cs =>
        cases cs with
        | nil => simp [textOf, pieceText]
        | cons d cs => rw [← List.flatMap_def]; rfl
    | cons e' es =>
      rw [materialText, ih, materialValue]
      · have hs := pieceText_sep ((formatRangeChunks max ids).map (textOf v)) (textPieces max (e' :: es)) 0 _ (by simp; rfl)
        rw [List.length_map] at hs
        unfold ends
        rw [List.isEmpty_cons]
        simp only [Bool.false_eq_true, if_false]
        by_cases h1 : (formatRangeChunks max ids).length = 1
        · obtain ⟨c, hc⟩ := List.length_eq_one_iff.1 h1
          rw [if_pos h1, hc]
          simp [textOf, pieceText]
        · rw [if_neg h1, hs]
          revert h1
          cases formatRangeChunks max ids with
          | nil => intro _; rfl
          | cons c cs =>
            cases cs with
            | nil => intro h; exact absurd rfl h
            | cons d cs => intro _; rfl
      · simp

/-- **C57, the lines of a material, for every map**: the words of each are those of the value and of its features, and a line end is
written after each line of a value except the last one, unless the value needs one line only; no line end is written after the lines of
the last value of the map. -/
theorem material_words [Num D] [LawfulNum D] (max : Nat) (es : List (D × List Nat)) :
    (textLines (materialText max es)).map split = cut [] (pieces max es) := by
  have h1 : ∀ p ∈ textPieces max es, Piece p.1 := by
    induction es with
    | nil => simp [textPieces]
    | cons e es ih =>
      obtain ⟨v, ids⟩ := e
      intro p hp
      rcases List.mem_append.1 hp with hp | hp
      · obtain ⟨c, hc, e⟩ := List.mem_map.1 (List.of_mem_zip hp).1
        rw [← e]
        exact (piece_value v hc).1
      · exact ih p hp
  have h2 : (textPieces max es).map (fun p => (split p.1, p.2)) = pieces max es := by
    induction es with
    | nil => rfl
    | cons e es ih =>
      obtain ⟨v, ids⟩ := e
      rw [textPieces, pieces, List.map_append, ih fun p hp => h1 p (List.mem_append_right _ hp)]
      congr 1
      have hz := List.zip_map_left (l₁ := (formatRangeChunks max ids).map (textOf v))
        (l₂ := ends es.isEmpty (formatRangeChunks max ids).length) (f := split)
      have he : ((formatRangeChunks max ids).map (textOf v)).map split = words max v ids := by
        rw [List.map_map]
        apply List.map_congr_left
        intro c hc
        exact (piece_value v hc).2
      rw [he] at hz
      exact hz.symm
  have := pieceText_cut (textPieces max es) h1 [] (by simp)
  rw [h2, List.nil_append] at this
  rw [materialText_pieces, this]
  rfl

/-! ## Reading -/

/-- The content of lines, given their words. -/
def readWords : List (List Str) → Option (List (Str × Nat))
  | [] => some []
  | [] :: _ => none
  | (v :: ts) :: ls => do
    let a ← expandAll ts
    let b ← readWords ls
    some (a.map (fun i => (v, i)) ++ b)

theorem readLines_words (ls : List Str) : readLines ls = readWords (ls.map split) := by
  induction ls with
  | nil => rfl
  | cons l ls ih =>
    rw [readLines, List.map_cons, ih, readLine]
    cases split l with
    | nil => rfl
    | cons v ts =>
      rw [readWords]
      dsimp only
      cases expandAll ts <;> rfl

/-- The number of pieces that come after another one on their line. -/
def joins : Bool → List Bool → Nat
  | _, [] => 0
  | on, b :: bs => (if on then 1 else 0) + joins (!b) bs

theorem joins_pos (on : Bool) (l : List Bool) (x : Bool) (r : List Bool) : 0 < joins on (l ++ false :: x :: r) := by
  induction l generalizing on with
  | nil => simp [joins]; omega
  | cons b l ih =>
    have := ih (!b)
    rw [List.cons_append, joins]
    omega

/-- A piece with a value and readable ranges. -/
def Reads (w : List Str) (n : Nat) : Prop := ∃ v ts xs, w = v :: ts ∧ expandAll ts = some xs ∧ xs.length = n ∧ expand v ≠ some []

theorem cut_length (ps : List (List Str × Bool)) (ns : List Nat) (h : List.Forall₂ (fun p n => Reads p.1 n) ps ns) :
    (∀ r, readWords (cut [] ps) = some r → ns.sum + joins false (ps.map Prod.snd) ≤ r.length) ∧
    ∀ v ts r, readWords (cut (v :: ts) ps) = some r → ∃ x, expandAll ts = some x ∧
      x.length + ns.sum + joins true (ps.map Prod.snd) ≤ r.length := by
  induction h with
  | nil =>
    refine ⟨fun r _ => by simp [joins], ?_⟩
    intro v ts r hr
    rw [cut, if_neg (by simp), readWords] at hr
    cases hx : expandAll ts with
    | none => rw [hx] at hr; simp at hr
    | some x =>
      rw [hx] at hr
      refine ⟨x, rfl, ?_⟩
      simp [readWords] at hr
      rw [← hr]
      simp [joins]
  | @cons p n ps ns hp _ ih =>
    obtain ⟨w, b⟩ := p
    obtain ⟨v, ts, xs, hw, hxs, hn, hv⟩ := hp
    dsimp only at hw
    subst hw
    -- what is on the line after the piece
    have more : ∀ (us : List Str) x, expandAll (us ++ v :: ts) = some x → ∃ y, expandAll us = some y ∧ y.length + n + 1 ≤ x.length := by
      intro us x hx
      rw [expandAll_append, expandAll, hxs] at hx
      cases hu : expandAll us with
      | none => rw [hu] at hx; simp at hx
      | some y =>
        cases he : expand v with
        | none => rw [hu, he] at hx; simp at hx
        | some z =>
          rw [hu, he] at hx
          simp at hx
          refine ⟨y, rfl, ?_⟩
          rw [← hx]
          have : 0 < z.length := by
            cases z with
            | nil => exact absurd he hv
            | cons _ _ => simp
          simp only [List.length_append]
          omega
    cases b with
    | true =>
      refine ⟨?_, ?_⟩
      · intro r hr
        rw [cut, List.nil_append, readWords, hxs] at hr
        cases hc : readWords (cut [] ps) with
        | none => rw [hc] at hr; simp at hr
        | some s =>
          rw [hc] at hr
          simp at hr
          have := ih.1 s hc
          rw [← hr]
          simp only [List.sum_cons, List.map_cons, joins, List.length_append, List.length_map]
          simp only [Bool.not_true, Bool.false_eq_true, if_false]
          omega
      · intro u us r hr
        rw [cut, List.cons_append, readWords] at hr
        cases hx : expandAll (us ++ v :: ts) with
        | none => rw [hx] at hr; simp at hr
        | some x =>
          obtain ⟨y, hy, hl⟩ := more us x hx
          cases hc : readWords (cut [] ps) with
          | none => rw [hx, hc] at hr; simp at hr
          | some s =>
            rw [hx, hc] at hr
            simp at hr
            have := ih.1 s hc
            refine ⟨y, hy, ?_⟩
            rw [← hr]
            simp only [List.sum_cons, List.map_cons, joins, List.length_append, List.length_map]
            simp only [Bool.not_true, if_true]
            omega
    | false =>
      refine ⟨?_, ?_⟩
      · intro r hr
        rw [cut, List.nil_append] at hr
        obtain ⟨x, hx, hl⟩ := ih.2 v ts r hr
        rw [hxs] at hx
        injection hx with hx
        subst hx
        simp only [List.sum_cons, List.map_cons, joins]
        simp only [Bool.not_false, Bool.false_eq_true, if_false]
        omega
      · intro u us r hr
        rw [cut, List.cons_append] at hr
        obtain ⟨x, hx, hl⟩ := ih.2 u _ r hr
        obtain ⟨y, hy, hl'⟩ := more us x hx
        refine ⟨y, hy, ?_⟩
        simp only [List.sum_cons, List.map_cons, joins]
        simp only [Bool.not_false, if_true]
        omega

theorem chunks_ne {max : Nat} {ids : List Nat} (hi : ∀ i ∈ ids, i < NO_ID) (hne : ids ≠ []) : formatRangeChunks max ids ≠ [] := by
  intro h
  have := ranges_decoded max ids hi
  rw [h] at this
  simp [readRanges, expandAll] at this
  exact hne this

theorem ends_length (last : Bool) (n : Nat) : (ends last n).length = n := by
  unfold ends
  split
  · simp
  · split
    · simp [*]
    · simp

/-- Readable lines of words that denote all together `ids` denote as many numbers each as needed. -/
theorem reads_words [Num D] {v : D} (hv : expand (Num.fmt v) ≠ some []) (cs : List Str) (bs : List Bool) (hl : bs.length = cs.length)
    (ids : List Nat) (h : expandAll (cs.flatMap split) = some ids) :
    ∃ ns : List Nat, ns.sum = ids.length ∧ List.Forall₂ (fun p n => Reads p.1 n) ((cs.map fun c => Num.fmt v :: split c).zip bs) ns := by
  induction cs generalizing ids bs with
  | nil =>
    simp [expandAll] at h
    subst h
    exact ⟨[], rfl, .nil⟩
  | cons c cs ih =>
    cases bs with
    | nil => simp at hl
    | cons b bs =>
      rw [List.flatMap_cons, expandAll_append] at h
      cases h1 : expandAll (split c) with
      | none => rw [h1] at h; simp at h
      | some x =>
        cases h2 : expandAll (cs.flatMap split) with
        | none => rw [h1, h2] at h; simp at h
        | some y =>
          rw [h1, h2] at h
          simp at h
          obtain ⟨ns, hs, hf⟩ := ih bs (by simpa using hl) y h2
          refine ⟨x.length :: ns, ?_, .cons ⟨_, _, x, rfl, h1, rfl, hv⟩ hf⟩
          rw [← h, List.sum_cons, hs, List.length_append]

theorem reads_pieces [Num D] (max : Nat) (es : List (D × List Nat)) (hid : ∀ e ∈ es, ∀ i ∈ e.2, i < NO_ID)
    (hv : ∀ e ∈ es, expand (Num.fmt e.1) ≠ some []) :
    ∃ ns : List Nat, ns.sum = (pairs es).length ∧ List.Forall₂ (fun p n => Reads p.1 n) (pieces max es) ns := by
  induction es with
  | nil => exact ⟨[], rfl, .nil⟩
  | cons e es ih =>
    obtain ⟨v, ids⟩ := e
    obtain ⟨ns, hs, hf⟩ := ih (fun x hx => hid x (by simp [hx])) (fun x hx => hv x (by simp [hx]))
    obtain ⟨ms, hs', hf'⟩ := reads_words (hv (v, ids) (by simp)) _ _ (ends_length es.isEmpty _) ids
      (ranges_decoded max ids (hid (v, ids) (by simp)))
    refine ⟨ms ++ ns, ?_, List.rel_append hf' hf⟩
    rw [List.sum_append, hs, hs']
    simp [pairs]

/-- A value that needs two lines makes pieces come after others. -/
theorem joins_of_two [Num D] (max : Nat) (es : List (D × List Nat)) (hid : ∀ e ∈ es, ∀ i ∈ e.2, i < NO_ID) (hne : ∀ e ∈ es, e.2 ≠ [])
    (h : ∃ e ∈ es, 2 ≤ (formatRangeChunks max e.2).length) : ∃ l x r, (pieces max es).map Prod.snd = l ++ false :: x :: r := by
  have snd : ∀ (ws : List (List Str)) (bs : List Bool), bs.length = ws.length → (ws.zip bs).map Prod.snd = bs :=
    fun ws bs hl => List.map_snd_zip (by omega)
  induction es with
  | nil => simp at h
  | cons e es ih =>
    obtain ⟨v, ids⟩ := e
    rw [pieces, List.map_append, snd _ _ (by rw [ends_length]; simp [words])]
    by_cases h2 : 2 ≤ (formatRangeChunks max ids).length
    · revert h2
      generalize formatRangeChunks max ids = cs
      intro h2
      obtain ⟨n, hn⟩ : ∃ n, cs.length = n + 2 := ⟨cs.length - 2, by omega⟩
      rw [hn]
      cases es with
      | nil =>
        refine ⟨[], false, List.replicate n false, ?_⟩
        simp [ends, pieces, List.replicate_succ]
      | cons e' es =>
        obtain ⟨w, ids'⟩ := e'
        have hc := chunks_ne (max := max) (hid (w, ids') (by simp)) (hne (w, ids') (by simp))
        have : (pieces max ((w, ids') :: es)).map Prod.snd ≠ [] := by
          rw [pieces, List.map_append, snd _ _ (by rw [ends_length]; simp [words])]
          intro e
          have e1 := (List.append_eq_nil_iff.1 e).1
          have := ends_length es.isEmpty (formatRangeChunks max ids').length
          rw [e1] at this
          exact hc (List.length_eq_zero_iff.1 this.symm)
        cases hp : (pieces max ((w, ids') :: es)).map Prod.snd with
        | nil => exact absurd hp this
        | cons x r =>
          refine ⟨List.replicate (n + 1) true, x, r, ?_⟩
          simp [ends]
    · obtain ⟨e, he, h3⟩ := h
      rcases List.mem_cons.1 he with rfl | he
      · exact absurd h3 h2
      · obtain ⟨l, x, r, hl⟩ := ih (fun x hx => hid x (by simp [hx])) (fun x hx => hne x (by simp [hx])) ⟨e, he, h3⟩
        exact ⟨_ ++ l, x, r, by rw [hl, List.append_assoc]⟩

/-- **C57, exactly when it holds**: the lines of a material denote the content of its map exactly when the features of every value fit in
one line.  (A value is not the text of an empty range; no number is, see the example.) -/
theorem material_read_iff [Num D] [LawfulNum D] (max : Nat) (es : List (D × List Nat)) (hid : ∀ e ∈ es, ∀ i ∈ e.2, i < NO_ID)
    (hne : ∀ e ∈ es, e.2 ≠ []) (hv : ∀ e ∈ es, expand (Num.fmt e.1) ≠ some []) :
    readLines (textLines (materialText max es)) = some ((pairs es).map fun p => (Num.fmt p.1, p.2)) ↔
      ∀ e ∈ es, (formatRangeChunks max e.2).length = 1 := by
  constructor
  · intro h e he
    by_contra hc
    have h0 : (formatRangeChunks max e.2).length ≠ 0 := by
      intro h0
      exact chunks_ne (hid e he) (hne e he) (List.length_eq_zero_iff.1 h0)
    obtain ⟨l, x, r, hj⟩ := joins_of_two max es hid hne ⟨e, he, by omega⟩
    obtain ⟨ns, hs, hf⟩ := reads_pieces max es hid hv
    rw [readLines_words, material_words] at h
    have := (cut_length _ ns hf).1 _ h
    have hp := joins_pos false l x r
    rw [hj, hs, List.length_map] at this
    omega
  · intro h
    exact material_lines_partial max es (fun e he => List.length_eq_one_iff.1 (h e he)) hid

-- a value that is not the last one and needs two lines: its second line is also the first one of the next value
example : (textLines (materialText 8 [((4 : Int), [1, 3, 5, 7, 9]), (6, [2])])).map split =
    [[cs!"4", cs!"1", cs!"3", cs!"5", cs!"7"], [cs!"4", cs!"9", cs!"6", cs!"2"]] := by decide +kernel

example : ∀ v ∈ [(4 : Int), -3, 0], expand (Num.fmt v) ≠ some [] := by decide +kernel

end Verif.Props.FemMaterial
