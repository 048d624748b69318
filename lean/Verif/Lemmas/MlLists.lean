import Verif.Model.Ml
import Verif.Lemmas.Text
import Verif.Lemmas.GocadText
import Mathlib.Data.List.Forall2

/-! Lemmas on the component section of `.ml` files: runs over lines, and the numbers of a list. -/

namespace Verif.Ml

open Verif Verif.Gocad

/-- Reading lines that do not end the section. -/
def run (s : RState × Mode) (ls : File) : Res (RState × Mode) := Res.foldM' step s ls

@[simp] theorem run_nil (s : RState × Mode) : run s [] = .ok s := rfl

theorem run_cons (s : RState × Mode) (l : Str) (ls : File) : run s (l :: ls) = (step s l >>= fun s' => run s' ls) := rfl

theorem run_append (s : RState × Mode) (a b : File) : run s (a ++ b) = (run s a >>= fun s' => run s' b) := Res.foldM'_append ..

/-- Lines that do not start with `END`. -/
def NoEnd (ls : File) : Prop := ∀ l ∈ ls, startsWith l cs!"END" = false

theorem NoEnd.append {a b : File} (ha : NoEnd a) (hb : NoEnd b) : NoEnd (a ++ b) := by
  intro l hl
  rcases List.mem_append.1 hl with h | h
  · exact ha l h
  · exact hb l h

theorem readLines_append {ls : File} (h : NoEnd ls) (s : RState × Mode) (rest : File) :
    readLines s (ls ++ rest) = (run s ls >>= fun s' => readLines s' rest) := by
  induction ls generalizing s with
  | nil => rfl
  | cons l ls ih =>
    rw [List.cons_append, run_cons]
    obtain ⟨st, mode⟩ := s
    rw [readLines.eq_def]
    simp only []
    rw [if_neg (by rw [h l List.mem_cons_self]; simp), Res.bind_assoc']
    congr 1
    funext s'
    exact ih (fun x hx => h x (List.mem_cons_of_mem _ hx)) s'

/-! ### Numbers of a list -/

theorem untilZero_append (f : Str → Res (Option Nat)) (acc : List Nat) (a b : List Str) :
    untilZero f acc (a ++ b) = (untilZero f acc a >>= fun r => if r.2 then .ok (r.1, true) else untilZero f r.1 b) := by
  induction a generalizing acc with
  | nil => simp [untilZero]
  | cons t ts ih =>
    rw [List.cons_append, untilZero, untilZero]
    cases f t with
    | ok o =>
      cases o with
      | none => simp
      | some n => simp only [Res.ok_bind]; exact ih _
    | throw => rfl
    | ub => rfl
    | diverge => rfl

/-- The mode of a list: `f` reads its tokens, `mk acc` is the state after the numbers `acc`, `close` is what happens at 0. -/
structure ListMode (f : Str → Res (Option Nat)) (mk : List Nat → RState × Mode) (close : List Nat → Res (RState × Mode)) : Prop where
  step : ∀ acc l, step (mk acc) l = (untilZero f acc (split l) >>= fun r => if r.2 then close r.1 else .ok (mk r.1))
  zero : f cs!"0" = .ok none

/-- Reading back the numbers of a list. -/
theorem run_wrapped {f : Str → Res (Option Nat)} {mk : List Nat → RState × Mode} {close : List Nat → Res (RState × Mode)}
    (hm : ListMode f mk close) {xs : List Str} {vs : List Nat} (hx : List.Forall₂ (fun x v => IsTok x ∧ f x = .ok (some v)) xs vs) :
    ∀ (cur c : Str) (count : Nat) (acc acc1 : List Nat), cur = c ++ [' '] → untilZero f acc (split cur) = .ok (acc1, false) →
      run (mk acc) (wrapped cur count xs) = close (acc1 ++ vs) := by
  induction hx with
  | nil =>
    intro cur c count acc acc1 hc hu
    have hs : split (cur ++ cs!"0") = split cur ++ [cs!"0"] := by
      subst hc
      rw [List.append_assoc, List.singleton_append, split_append_space, split_append_space]
      simp [split_tok (show IsTok cs!"0" by decide)]
    rw [wrapped, run_cons, hm.step, hs, untilZero_append, hu]
    simp only [untilZero, hm.zero, Res.ok_bind, Res.pure_eq, Bool.false_eq_true, if_false, if_true, List.append_nil]
    cases close acc1 <;> rfl
  | @cons x v xs vs hxv _ ih =>
    intro cur c count acc acc1 hc hu
    have hs : split (cur ++ x ++ cs!"  ") = split cur ++ [x] := by
      subst hc
      rw [List.append_assoc, List.append_assoc, List.singleton_append, split_append_space]
      rw [split_append_space, split_append_space, split_tok hxv.1]
      have e : split cs!" " = [] := rfl
      have e' : split [] = [] := rfl
      rw [e, e', List.append_nil, List.append_nil]
    have hu' : untilZero f acc (split (cur ++ x ++ cs!"  ")) = .ok (acc1 ++ [v], false) := by
      rw [hs, untilZero_append, hu]
      simp [untilZero, hxv.2]
    rw [wrapped]
    split
    · rw [run_cons, hm.step, hu']
      have h2 := ih cs!"  " cs!" " (count + 1) (acc1 ++ [v]) (acc1 ++ [v]) rfl rfl
      have e : split cs!"  " = [] := rfl
      simp only [Res.ok_bind, Bool.false_eq_true, if_false]
      rw [h2, List.append_assoc]; rfl
    · have h2 := ih (cur ++ x ++ cs!"  ") (cur ++ x ++ cs!" ") (count + 1) acc (acc1 ++ [v]) (by simp) hu'
      rw [h2, List.append_assoc]; rfl

theorem wrapped_noEnd : ∀ (xs : List Str) (cur : Str) (count : Nat), cur.head? = some ' ' → NoEnd (wrapped cur count xs) := by
  have key : ∀ cur r : Str, cur.head? = some ' ' → startsWith (cur ++ r) cs!"END" = false := by
    intro cur r h
    cases cur with
    | nil => simp at h
    | cons a l => simp at h; subst h; rfl
  have key2 : ∀ cur r : Str, cur.head? = some ' ' → (cur ++ r).head? = some ' ' := by
    intro cur r h
    cases cur with
    | nil => simp at h
    | cons a l => simpa using h
  intro xs
  induction xs with
  | nil =>
    intro cur count h l hl
    rw [wrapped, List.mem_singleton] at hl
    subst hl
    exact key _ _ h
  | cons x xs ih =>
    intro cur count h
    rw [wrapped]
    split
    · intro l hl
      rcases List.mem_cons.1 hl with rfl | hl
      · rw [List.append_assoc]; exact key _ _ h
      · exact ih cs!"  " _ rfl l hl
    · exact ih _ _ (by rw [List.append_assoc]; exact key2 _ _ h)

/-- The list of a region. -/
theorem listMode_block (st : RState) (name : Str) :
    ListMode surfaceToken (fun acc => (st, .block name acc)) (fun acc => do
      let st ← closeBlock st name acc
      pure (st, .top)) where
  step := by
    intro acc l
    simp only [step]
    congr 1
  zero := by decide

/-- The list of the universe. -/
theorem listMode_outside (st : RState) :
    ListMode (universeToken st) (fun acc => ({ st with outside := st.outside ++ acc }, .outside))
      (fun acc => .ok ({ st with outside := st.outside ++ acc }, .top)) where
  step := by
    have shift : ∀ (ts : List Str) (acc acc' : List Nat), untilZero (universeToken st) (acc ++ acc') ts =
        (untilZero (universeToken st) acc' ts >>= fun r => .ok (acc ++ r.1, r.2)) := by
      intro ts
      induction ts with
      | nil => intro acc acc'; rfl
      | cons t ts ih =>
        intro acc acc'
        rw [untilZero, untilZero]
        cases universeToken st t with
        | ok o =>
          cases o with
          | none => rfl
          | some n => simp only [Res.ok_bind]; rw [List.append_assoc]; exact ih _ _
        | throw => rfl
        | ub => rfl
        | diverge => rfl
    intro acc l
    have h := shift (split l) acc []
    rw [List.append_nil] at h
    rw [h]
    simp only [step]
    have e : ∀ o, universeToken { st with outside := o } = universeToken st := fun _ => rfl
    rw [e]
    cases untilZero (universeToken st) [] (split l) with
    | ok r => obtain ⟨a, b⟩ := r; cases b <;> simp
    | throw => rfl
    | ub => rfl
    | diverge => rfl
  zero := by
    have : surfaceToken cs!"0" = .ok none := by decide
    simp [universeToken, this]

/-- The list of a layer. -/
theorem listMode_layer (st : RState) (name : Str) :
    ListMode (layerToken st) (fun acc => (st, .layer name acc))
      (fun acc => .ok ({ st with units := st.units ++ [(name, layerBlocks st acc)] }, .top)) where
  step := by
    intro acc l
    simp only [step]
    congr 1
  zero := by
    have : readIndex cs!"0" = .ok 0 := by decide
    simp [layerToken, this]

/-- The list of a fault block. -/
theorem listMode_faultBlock (st : RState) (name : Str) :
    ListMode (layerToken st) (fun acc => (st, .faultBlock name acc))
      (fun acc => .ok ({ st with faultBlocks := st.faultBlocks ++ [(name, layerBlocks st acc)] }, .top)) where
  step := by
    intro acc l
    simp only [step]
    congr 1
  zero := by
    have : readIndex cs!"0" = .ok 0 := by decide
    simp [layerToken, this]

/-! ### Tokens -/

theorem isTok_signed (side : Bool) (n : Nat) : IsTok (signed side n) := by
  have h := isTok_showNat n
  refine ⟨by simp [signed], ?_⟩
  intro c hc
  rcases List.mem_cons.1 hc with rfl | hc
  · cases side <;> rfl
  · exact h.2 c hc

theorem parseInt_signed {side : Bool} {n : Nat} (h : n < 2147483648) :
    parseInt (signed side n) = some (if side then (n : Int) else -(n : Int)) := by
  cases side
  · simp only [signed, parseInt, Bool.false_eq_true, if_false, parseNat_showNat]
    rw [if_pos (by omega)]
  · simp only [signed, parseInt, if_true, parseNat_showNat]
    rw [if_pos h]

theorem surfaceToken_signed {side : Bool} {n : Nat} (h0 : 0 < n) (h : n < 2147483648) :
    surfaceToken (signed side n) = .ok (some (n - 1)) := by
  unfold surfaceToken
  rw [parseInt_signed h]
  cases side
  · simp only [Bool.false_eq_true, if_false, Res.ofParse_some, Res.ok_bind]
    rw [if_neg (by omega), if_neg (by omega)]
    simp
  · simp only [if_true, Res.ofParse_some, Res.ok_bind]
    rw [if_neg (by omega), if_neg (by omega)]
    simp

theorem universeToken_signed {st : RState} {side : Bool} {n : Nat} (h0 : 0 < n) (h : n < 2147483648) (hs : n ≤ st.surfaces.length) :
    universeToken st (signed side n) = .ok (some (n - 1)) := by
  unfold universeToken
  rw [surfaceToken_signed h0 h]
  simp only [Res.ok_bind]
  rw [Res.at_of_lt (by omega)]
  rfl

theorem layerToken_showNat {st : RState} {n : Nat} (h0 : 0 < n) (h : n < W) :
    layerToken st (showNat n) = .ok (some (sub32 n ((1 + st.surfaces.length) % W))) := by
  unfold layerToken readIndex
  rw [parseIndex_showNat h]
  simp only [Res.ofParse_some, Res.ok_bind]
  rw [if_neg (by omega)]
  rfl

end Verif.Ml
