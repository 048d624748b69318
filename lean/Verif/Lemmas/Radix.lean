import Mathlib.Tactic.Ring

/-!
# Numbering of the positions of a box
-/

namespace Verif.Radix

/-- Sizes of a box, or a position in it. -/
abbrev Box := Nat × Nat × Nat

/-- The position is in the box of size `n`. -/
def InGrid (n c : Box) : Prop := c.1 < n.1 ∧ c.2.1 < n.2.1 ∧ c.2.2 < n.2.2

instance (n c : Box) : Decidable (InGrid n c) := by unfold InGrid; infer_instance

/-- Number of a position, the first coordinate running fastest. -/
def flat (n c : Box) : Nat := c.1 + n.1 * (c.2.1 + n.2.1 * c.2.2)

theorem flat_lt {n c : Box} (h : InGrid n c) : flat n c < n.1 * n.2.1 * n.2.2 := by
  obtain ⟨nx, ny, nz⟩ := n
  obtain ⟨i, j, k⟩ := c
  obtain ⟨h1, h2, h3⟩ := h
  simp only [flat] at *
  have a : j + ny * k + 1 ≤ ny * nz := by
    have : ny * (k + 1) ≤ ny * nz := Nat.mul_le_mul_left _ h3
    rw [Nat.mul_add] at this; omega
  have b := Nat.mul_le_mul_left nx a
  rw [Nat.mul_add, ← Nat.mul_assoc] at b
  omega

theorem flat_inj {n c c' : Box} (h : InGrid n c) (h' : InGrid n c') (e : flat n c = flat n c') : c = c' := by
  obtain ⟨nx, ny, nz⟩ := n
  obtain ⟨i, j, k⟩ := c
  obtain ⟨i', j', k'⟩ := c'
  obtain ⟨h1, h2, -⟩ := h
  obtain ⟨h1', h2', -⟩ := h'
  simp only [flat] at *
  have m := congrArg (· % nx) e
  simp only [Nat.add_mul_mod_self_left, Nat.mod_eq_of_lt h1, Nat.mod_eq_of_lt h1'] at m
  subst m
  have e2 : j + ny * k = j' + ny * k' := Nat.eq_of_mul_eq_mul_left (by omega) (Nat.add_left_cancel e)
  have m := congrArg (· % ny) e2
  simp only [Nat.add_mul_mod_self_left, Nat.mod_eq_of_lt h2, Nat.mod_eq_of_lt h2'] at m
  subst m
  have e3 : k = k' := Nat.eq_of_mul_eq_mul_left (n := ny) (by omega) (Nat.add_left_cancel e2)
  rw [e3]

end Verif.Radix
