import Verif.Props.GocadText
import Verif.Props.MlUniques

/-!
# Columns of the properties and order of the pieces

What reading the values of a vertex does when there are fewer columns than properties, and that the pieces of a surface are sorted by line.
-/

set_option linter.unusedSectionVars false

namespace Verif.Props.ColumnsSorted

open Verif Verif.Gocad Verif.MlLines Res

section
variable {D : Type} [Num D] [LawfulNum D]

/-- **C14, too few columns**: when all the values are there but a property has no column, the column is read past the end. -/
theorem no_column (es : List Nat) (cols : List (List D)) (row : List D) (hc : cols.length < es.length) (hr : row.length = es.sum) :
    readProperties es cols (row.map Num.fmt) = .ub := by
  induction es generalizing cols row with
  | nil => simp at hc
  | cons e es ih =>
    cases cols with
    | nil => rfl
    | cons c cols =>
      simp only [List.sum_cons] at hr
      have hl : (row.take e).length = e := by simp; omega
      have h1 : readItems e (row.map Num.fmt) = .ok ((row.take e).map Num.round, (row.drop e).map Num.fmt) := by
        have := Props.GocadText.readItems_all (row.take e) ((row.drop e).map Num.fmt)
        rw [hl, ← List.map_append, List.take_append_drop] at this
        exact this
      rw [readProperties, h1, Res.ok_bind]
      simp only
      rw [ih cols (row.drop e) (by simpa using hc) (by simp; omega)]
      rfl

/-- Test: two properties of one value, one column. -/
example (a b : D) : readProperties [1, 1] [([] : List D)] ([a, b].map Num.fmt) = .ub := no_column _ _ _ (by simp) (by simp)
end

theorem insert_sorted (p : Piece) : ∀ {ps : List Piece}, ps.Pairwise (fun a b => a.line ≤ b.line) →
    (insertPiece p ps).Pairwise fun a b => a.line ≤ b.line
  | [], _ => by simp [insertPiece]
  | q :: qs, h => by
    obtain ⟨hq, ht⟩ := List.pairwise_cons.1 h
    rw [insertPiece]
    split
    · rename_i hle
      refine List.pairwise_cons.2 ⟨fun x hx => ?_, h⟩
      rcases List.mem_cons.1 hx with rfl | hx
      · exact hle
      · exact Nat.le_trans hle (hq x hx)
    · rename_i hgt
      refine List.pairwise_cons.2 ⟨fun x hx => ?_, insert_sorted p ht⟩
      rcases List.mem_cons.1 ((Props.MlUniques.insertPiece_perm p qs).mem_iff.1 hx) with rfl | hx
      · omega
      · exact hq x hx

/-- **C137, the order**: the pieces of a surface are sorted by line before they are tied, so those of one line are next to each other. -/
theorem pieces_sorted : ∀ ps : List Piece, (sortPieces ps).Pairwise fun a b => a.line ≤ b.line
  | [] => List.Pairwise.nil
  | p :: ps => insert_sorted p (pieces_sorted ps)

/-- **C137, the order**: whatever is between two pieces of one line is of that line. -/
theorem pieces_together {ps l m r : List Piece} {a b c : Piece} (h : sortPieces ps = l ++ a :: m ++ c :: r) (hl : a.line = c.line) (hb : b ∈ m) :
    b.line = a.line := by
  have hs := pieces_sorted ps
  rw [h] at hs
  obtain ⟨h1, _, h2⟩ := List.pairwise_append.1 hs
  obtain ⟨_, h3, _⟩ := List.pairwise_append.1 h1
  have hab := (List.pairwise_cons.1 h3).1 b hb
  have hbc := h2 b (by simp [hb]) c (by simp)
  omega

/-- Test: the two pieces of line 0 are put together. -/
example : (sortPieces [⟨0, 0, [1]⟩, ⟨0, 1, [2]⟩, ⟨0, 0, [3]⟩]).map Piece.line = [0, 0, 1] := by decide +kernel

end Verif.Props.ColumnsSorted
