import Verif.Base.Outcome

/-!
# The first element that is not fine

Reading elements one after the other has undefined behaviour when the first one that is not read has it.
-/

namespace Verif

open Res

theorem Res.bind_ub {A B : Type} {r : Res A} {k : A → Res B} : (r >>= k) = .ub ↔ r = .ub ∨ ∃ a, r = .ok a ∧ k a = .ub := by
  cases r <;> simp

theorem Res.bind_diverge {A B : Type} {r : Res A} {k : A → Res B} : (r >>= k) = .diverge ↔ r = .diverge ∨ ∃ a, r = .ok a ∧ k a = .diverge := by
  cases r <;> simp

theorem Res.index_ub_iff {A : Type} {l : List A} {i : Nat} : Res.index l i = .ub ↔ l.length ≤ i := by
  unfold Res.index
  cases h : l[i]? with
  | none => simpa using h
  | some a => simpa using (List.getElem?_eq_some_iff.1 h).1

theorem Res.index_ne_diverge {A : Type} {l : List A} {i : Nat} : Res.index l i ≠ .diverge := by
  unfold Res.index
  split <;> simp

/-- The first element that is not fine is a wrong one. -/
def FirstBad {A : Type} (fine wrong : A → Prop) (xs : List A) : Prop := ∃ pre x post, xs = pre ++ x :: post ∧ (∀ y ∈ pre, fine y) ∧ wrong x

theorem firstBad_cons {A : Type} {fine wrong : A → Prop} {x : A} {xs : List A} :
    FirstBad fine wrong (x :: xs) ↔ wrong x ∨ (fine x ∧ FirstBad fine wrong xs) := by
  constructor
  · rintro ⟨_ | ⟨y, pre⟩, z, post, e, h1, h2⟩
    · cases e; exact .inl h2
    · cases e; exact .inr ⟨h1 _ (by simp), pre, z, post, rfl, fun y hy => h1 y (by simp [hy]), h2⟩
  · rintro (h | ⟨h1, pre, z, post, rfl, h2, h3⟩)
    · exact ⟨[], x, xs, rfl, by simp, h⟩
    · refine ⟨x :: pre, z, post, rfl, ?_, h3⟩
      intro y hy
      rcases List.mem_cons.1 hy with rfl | hy
      · exact h1
      · exact h2 y hy

theorem firstBad_nil {A : Type} {fine wrong : A → Prop} : ¬FirstBad fine wrong ([] : List A) := by
  rintro ⟨_ | ⟨_, _⟩, _, _, e, _⟩ <;> cases e

theorem firstBad_append {A : Type} {fine wrong : A → Prop} {xs ys : List A} :
    FirstBad fine wrong (xs ++ ys) ↔ FirstBad fine wrong xs ∨ ((∀ x ∈ xs, fine x) ∧ FirstBad fine wrong ys) := by
  induction xs with
  | nil => simp [firstBad_nil]
  | cons x xs ih =>
    rw [List.cons_append, firstBad_cons, firstBad_cons, ih, or_assoc]
    refine or_congr Iff.rfl ?_
    simp only [List.mem_cons, forall_eq_or_imp]
    constructor
    · rintro ⟨h1, h | ⟨h2, h3⟩⟩
      · exact .inl ⟨h1, h⟩
      · exact .inr ⟨⟨h1, h2⟩, h3⟩
    · rintro (⟨h1, h⟩ | ⟨⟨h1, h2⟩, h3⟩)
      · exact ⟨h1, .inl h⟩
      · exact ⟨h1, .inr ⟨h2, h3⟩⟩

theorem firstBad_congr {A : Type} {f1 w1 f2 w2 : A → Prop} {xs : List A} (hf : ∀ x ∈ xs, f1 x ↔ f2 x) (hw : ∀ x ∈ xs, w1 x ↔ w2 x) :
    FirstBad f1 w1 xs ↔ FirstBad f2 w2 xs := by
  induction xs with
  | nil => simp [firstBad_nil]
  | cons x xs ih =>
    rw [firstBad_cons, firstBad_cons, hf x (by simp), hw x (by simp), ih (fun y hy => hf y (by simp [hy])) fun y hy => hw y (by simp [hy])]

theorem firstBad_map {A B : Type} {g : B → A} {fine wrong : A → Prop} {xs : List B} :
    FirstBad fine wrong (xs.map g) ↔ FirstBad (fun x => fine (g x)) (fun x => wrong (g x)) xs := by
  induction xs with
  | nil => simp [firstBad_nil]
  | cons x xs ih => rw [List.map_cons, firstBad_cons, firstBad_cons, ih]

theorem firstBad_exists {A : Type} {fine wrong : A → Prop} {l : List A} (h : FirstBad fine wrong l) : ∃ x ∈ l, wrong x := by
  obtain ⟨pre, x, post, rfl, -, h⟩ := h
  exact ⟨x, by simp, h⟩

theorem firstBad_not_all {A : Type} {fine wrong : A → Prop} (hw : ∀ a, wrong a → ¬ fine a) {l : List A} (h : FirstBad fine wrong l) : ¬ ∀ a ∈ l, fine a := by
  obtain ⟨x, hx, h⟩ := firstBad_exists h
  exact fun ha => hw x h (ha x hx)

theorem firstBad_clash {A : Type} {fine w1 w2 : A → Prop} (h1 : ∀ a, w1 a → ¬ fine a) (h2 : ∀ a, w2 a → ¬ fine a) (h3 : ∀ a, w1 a → ¬ w2 a) {xs : List A}
    (ha : FirstBad fine w1 xs) : ¬ FirstBad fine w2 xs := by
  induction xs with
  | nil => exact absurd ha firstBad_nil
  | cons x xs ih =>
    intro hb
    rcases firstBad_cons.1 ha with ha | ⟨ha, ha'⟩ <;> rcases firstBad_cons.1 hb with hb | ⟨hb, hb'⟩
    · exact h3 x ha hb
    · exact h1 x ha hb
    · exact h2 x hb ha
    · exact ih ha' hb'

theorem Res.mapM'_ub {A B : Type} {g : A → Res B} {l : List A} : Res.mapM' g l = .ub ↔ FirstBad (fun a => ∃ b, g a = .ok b) (fun a => g a = .ub) l := by
  induction l with
  | nil => simp [firstBad_nil]
  | cons a l ih =>
    rw [mapM'_cons, Res.bind_ub, firstBad_cons]
    refine or_congr Iff.rfl ?_
    constructor
    · rintro ⟨b, e, h⟩
      rcases Res.bind_ub.1 h with h | ⟨_, _, h⟩
      · exact ⟨⟨b, e⟩, ih.1 h⟩
      · simp at h
    · rintro ⟨⟨b, e⟩, h⟩
      exact ⟨b, e, by rw [ih.2 h]; rfl⟩

theorem Res.mapM'_ends {A B : Type} {g : A → Res B} (hg : ∀ a, g a ≠ .diverge) (l : List A) : Res.mapM' g l ≠ .diverge := by
  induction l with
  | nil => simp
  | cons a l ih =>
    rw [mapM'_cons]
    intro h
    rcases Res.bind_diverge.1 h with h | ⟨_, _, h⟩
    · exact hg a h
    · rcases Res.bind_diverge.1 h with h | ⟨_, _, h⟩
      · exact ih h
      · simp at h

theorem Res.foldM'_ends {A S : Type} {g : S → A → Res S} (hg : ∀ s a, g s a ≠ .diverge) (l : List A) : ∀ s, Res.foldM' g s l ≠ .diverge := by
  induction l with
  | nil => intro s; simp
  | cons a l ih =>
    intro s e
    rw [foldM'_cons] at e
    rcases Res.bind_diverge.1 e with e | ⟨_, _, e⟩
    · exact hg _ _ e
    · exact ih _ e

end Verif
