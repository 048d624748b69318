/-!
# Outcomes of the modelled C++ functions

Every modelled function that can fail returns a `Res`.  The four outcomes are kept apart on purpose:

* `ok a`      : the C++ function returns normally with value `a`;
* `throw`     : a C++ exception leaves the function (`OpenGeodeException`, `std::out_of_range` raised by
                `.at()`, ...);
* `ub`        : the C++ function has undefined behaviour (out-of-bounds `operator[]`, `front()` of an empty
                vector, dereferencing `end()`, reading an uninitialised variable) or violates a precondition of
                an OpenGeode builder (vertex index out of range);
* `diverge`   : the C++ function loops forever.
-/

namespace Verif

/-- Outcome of a C++ call; see the module comment. -/
inductive Res (α : Type) : Type where
  | ok (a : α) : Res α
  | throw : Res α
  | ub : Res α
  | diverge : Res α
  deriving DecidableEq, Repr

namespace Res

variable {α β γ : Type}

/-- Sequencing: anything but `ok` leaves the enclosing function at once. -/
protected def bind (x : Res α) (f : α → Res β) : Res β :=
  match x with
  | ok a => f a
  | throw => throw
  | ub => ub
  | diverge => diverge

instance : Monad Res where
  pure := ok
  bind := Res.bind

@[simp] theorem pure_eq (a : α) : (pure a : Res α) = ok a := rfl
@[simp] theorem ok_bind (a : α) (f : α → Res β) : (ok a >>= f) = f a := rfl
@[simp] theorem throw_bind (f : α → Res β) : ((throw : Res α) >>= f) = throw := rfl
@[simp] theorem ub_bind (f : α → Res β) : ((ub : Res α) >>= f) = ub := rfl
@[simp] theorem diverge_bind (f : α → Res β) : ((diverge : Res α) >>= f) = diverge := rfl

theorem bind_eq_ok {x : Res α} {f : α → Res β} {b : β} :
    (x >>= f) = ok b ↔ ∃ a, x = ok a ∧ f a = ok b := by
  cases x <;> simp

theorem bind_assoc' (x : Res α) (f : α → Res β) (g : β → Res γ) :
    (x >>= f) >>= g = x >>= fun a => f a >>= g := by
  cases x <;> rfl

instance : LawfulMonad Res := LawfulMonad.mk'
  (id_map := by intro α x; cases x <;> rfl)
  (pure_bind := by intros; rfl)
  (bind_assoc := by intro α β γ x f g; exact bind_assoc' x f g)

@[simp] theorem map_ok (f : α → β) (a : α) : f <$> (ok a : Res α) = ok (f a) := rfl

/-- `check_exception( cond, ... )`: throws when the condition is false. -/
def check (b : Bool) : Res Unit := if b then ok () else throw

@[simp] theorem check_true : check true = ok () := rfl
@[simp] theorem check_false : check false = throw := rfl

/-- `v[i]` on a `std::vector`/`deque`/`span`: out of range is undefined behaviour. -/
def index (l : List α) (i : Nat) : Res α :=
  match l[i]? with
  | some a => ok a
  | none => ub

/-- `v.at(i)` on a `std::vector`/`deque`: out of range throws `std::out_of_range`. -/
def at_ (l : List α) (i : Nat) : Res α :=
  match l[i]? with
  | some a => ok a
  | none => throw

/-- A parse function that throws on malformed text (`string_to_index`, `string_to_double`, ...). -/
def ofParse (o : Option α) : Res α :=
  match o with
  | some a => ok a
  | none => throw

@[simp] theorem ofParse_some (a : α) : ofParse (some a) = ok a := rfl
@[simp] theorem ofParse_none : ofParse (none : Option α) = throw := rfl

@[simp] theorem index_cons_zero (a : α) (l : List α) : index (a :: l) 0 = ok a := rfl
@[simp] theorem index_cons_succ (a : α) (l : List α) (n : Nat) : index (a :: l) (n+1) = index l n := rfl
@[simp] theorem index_nil (n : Nat) : index ([] : List α) n = ub := rfl

theorem index_eq_ok {l : List α} {i : Nat} {a : α} : index l i = ok a ↔ l[i]? = some a := by
  unfold index; cases l[i]? <;> simp

theorem index_of_lt {l : List α} {i : Nat} (h : i < l.length) : index l i = ok l[i] := by
  simp [index_eq_ok, h]

theorem at_eq_ok {l : List α} {i : Nat} {a : α} : at_ l i = ok a ↔ l[i]? = some a := by
  unfold at_; cases l[i]? <;> simp

theorem at_of_lt {l : List α} {i : Nat} (h : i < l.length) : at_ l i = ok l[i] := by
  simp [at_eq_ok, h]

theorem at_of_ge {l : List α} {i : Nat} (h : l.length ≤ i) : at_ l i = throw := by
  unfold at_; simp [h]

/-- Left-to-right monadic map (a C++ `for` loop pushing one result per element). -/
def mapM' (f : α → Res β) : List α → Res (List β)
  | [] => ok []
  | a :: as => do
    let b ← f a
    let bs ← mapM' f as
    pure (b :: bs)

@[simp] theorem mapM'_nil (f : α → Res β) : mapM' f [] = ok [] := rfl
@[simp] theorem mapM'_cons (f : α → Res β) (a : α) (as : List α) :
    mapM' f (a :: as) = (f a >>= fun b => mapM' f as >>= fun bs => ok (b :: bs)) := rfl

theorem mapM'_ok {f : α → Res β} {g : α → β} {l : List α} (h : ∀ a ∈ l, f a = ok (g a)) :
    mapM' f l = ok (l.map g) := by
  induction l with
  | nil => rfl
  | cons a as ih =>
    rw [mapM'_cons, h a (by simp), ih (fun b hb => h b (by simp [hb]))]; rfl

/-- A C++ `for` loop threading a state. -/
def foldM' (f : β → α → Res β) : β → List α → Res β
  | b, [] => ok b
  | b, a :: as => f b a >>= fun b' => foldM' f b' as

@[simp] theorem foldM'_nil (f : β → α → Res β) (b : β) : foldM' f b [] = ok b := rfl
@[simp] theorem foldM'_cons (f : β → α → Res β) (b : β) (a : α) (as : List α) :
    foldM' f b (a :: as) = (f b a >>= fun b' => foldM' f b' as) := rfl

theorem foldM'_append (f : β → α → Res β) (b : β) (l₁ l₂ : List α) :
    foldM' f b (l₁ ++ l₂) = (foldM' f b l₁ >>= fun b' => foldM' f b' l₂) := by
  induction l₁ generalizing b with
  | nil => rfl
  | cons a as ih =>
    simp only [List.cons_append, foldM'_cons]
    cases f b a <;> simp [ih]

end Res
end Verif
