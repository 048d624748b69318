import Verif.Model.Fem
import Verif.Lemmas.GocadText

/-!
# C30 and C31: lists of ranges of FEFLOW files
-/

namespace Verif.Props.FemRanges

open Verif Verif.Fem

/-! ## Specification -/

/-- What a range denotes: `a` is a, `a-b` is a to b. -/
def expand (t : Str) : Option (List Nat) :=
  match t.dropWhile (fun c => c != '-') with
  | [] => (parseNat t).map fun a => [a]
  | _ :: b => do
    let a ← parseNat (t.takeWhile fun c => c != '-')
    let b ← parseNat b
    some (List.range' a (b + 1 - a))

/-- What a list of ranges denotes. -/
def expandAll : List Str → Option (List Nat)
  | [] => some []
  | t :: ts => do
    let a ← expand t
    let b ← expandAll ts
    some (a ++ b)

/-- What lines of ranges denote: no range goes over two lines. -/
def readRanges (ls : List Str) : Option (List Nat) := expandAll (ls.flatMap split)

/-! ## Tokens -/

theorem dash_not_mem_showNat (n : Nat) : '-' ∉ showNat n := by
  intro h
  obtain ⟨d, hd, e⟩ := (showNat_spec n).2.1 _ h
  revert e
  have : ∀ d, d < 10 → '-' ≠ digitChar d := by decide
  exact this d hd

theorem isTok_token (s p : Nat) : IsTok (token s p) := by
  unfold token
  split
  · exact isTok_showNat s
  · refine ⟨by simp, ?_⟩
    intro c hc
    rcases List.mem_append.1 hc with h | h
    · exact (isTok_showNat s).2 c h
    · rcases List.mem_cons.1 h with rfl | h
      · rfl
      · exact (isTok_showNat p).2 c h

theorem dropWhile_showNat (n : Nat) (r : Str) : (showNat n ++ '-' :: r).dropWhile (fun c => c != '-') = '-' :: r := by
  rw [List.dropWhile_append_of_pos]
  · rfl
  · intro c hc
    have : c ≠ '-' := fun h => dash_not_mem_showNat n (h ▸ hc)
    simp [this]

theorem takeWhile_showNat (n : Nat) (r : Str) : (showNat n ++ '-' :: r).takeWhile (fun c => c != '-') = showNat n := by
  rw [List.takeWhile_append_of_pos]
  · simp
  · intro c hc
    have : c ≠ '-' := fun h => dash_not_mem_showNat n (h ▸ hc)
    simp [this]

theorem expand_token {s p : Nat} (h : s ≤ p) : expand (token s p) = some (List.range' s (p + 1 - s)) := by
  unfold token
  split
  · rename_i e
    subst e
    unfold expand
    have : (showNat s).dropWhile (fun c => c != '-') = [] := by
      have e := List.dropWhile_append_of_pos (p := fun c => c != '-') (l₁ := showNat s) (l₂ := []) (by
        intro c hc
        have : c ≠ '-' := fun h => dash_not_mem_showNat s (h ▸ hc)
        simp [this])
      rw [List.append_nil] at e
      exact e
    rw [this, Nat.add_sub_cancel_left]
    simp [parseNat_showNat]
  · unfold expand
    rw [dropWhile_showNat, takeWhile_showNat]
    simp [parseNat_showNat]

theorem expandAll_append (a b : List Str) :
    expandAll (a ++ b) = (expandAll a).bind fun x => (expandAll b).map fun y => x ++ y := by
  induction a with
  | nil => simp [expandAll]
  | cons t ts ih =>
    simp only [List.cons_append, expandAll, ih]
    cases expand t with
    | none => rfl
    | some x =>
      cases expandAll ts with
      | none => rfl
      | some y =>
        cases expandAll b with
        | none => rfl
        | some z => simp

/-! ## The loop -/

theorem appendValue_toks (max : Nat) (st : List Str × Str) {tmp : Str} (h : IsTok tmp) :
    ((appendValue max st tmp).1 ++ [(appendValue max st tmp).2]).flatMap split = (st.1 ++ [st.2]).flatMap split ++ [tmp] := by
  unfold appendValue
  by_cases hc : st.2.length + tmp.length + 1 > max
  · simp [hc, split_tok h, split]
  · simp only [hc, if_false]
    by_cases he : st.2 = []
    · simp [he, split_tok h, split]
    · simp only [he, if_false, List.flatMap_append, List.flatMap_cons, List.flatMap_nil, List.append_nil, List.append_assoc]
      rw [show st.2 ++ ([' '] ++ tmp) = st.2 ++ ' ' :: tmp from rfl, split_append_space, split_tok h]

theorem appendValue_ne (max : Nat) (st : List Str × Str) {tmp : Str} (h : IsTok tmp) : (appendValue max st tmp).2 ≠ [] := by
  unfold appendValue
  intro e
  exact h.1 (List.append_eq_nil_iff.1 e).2

/-- The end of `format_range_chunks`. -/
def finish (max : Nat) (st : ChunkState) : List Str :=
  let r := appendValue max (st.results, st.current) (token st.start st.prev)
  if r.2 = [] then r.1 else r.1 ++ [r.2]

theorem finish_toks (max : Nat) (st : ChunkState) :
    (finish max st).flatMap split = (st.results ++ [st.current]).flatMap split ++ [token st.start st.prev] := by
  unfold finish
  have hne := appendValue_ne max (st.results, st.current) (isTok_token st.start st.prev)
  dsimp only
  rw [if_neg hne]
  exact appendValue_toks max (st.results, st.current) (isTok_token st.start st.prev)

theorem loop_decoded (max : Nat) (es : List Nat) : ∀ (st : ChunkState) (done : List Nat), (∀ e ∈ es, e < NO_ID) → st.prev < NO_ID →
    st.start ≤ st.prev → expandAll ((st.results ++ [st.current]).flatMap split) = some done →
    readRanges (finish max (es.foldl (chunkStep max) st)) = some (done ++ List.range' st.start (st.prev + 1 - st.start) ++ es) := by
  induction es with
  | nil =>
    intro st done _ _ hle hd
    unfold readRanges
    rw [List.foldl_nil, finish_toks, expandAll_append, hd]
    simp [expandAll, expand_token hle]
  | cons e es ih =>
    intro st done hes hp hle hd
    rw [List.foldl_cons]
    have hmod : (st.prev + 1) % W = st.prev + 1 := Nat.mod_eq_of_lt (by unfold NO_ID at hp; unfold W; omega)
    have hes' : ∀ e ∈ es, e < NO_ID := fun x hx => hes x (by simp [hx])
    have he := hes e (by simp)
    unfold chunkStep
    rw [hmod]
    by_cases hc : e = st.prev + 1
    · rw [if_pos hc]
      have := ih { st with prev := e } done hes' he (by dsimp only; omega) hd
      refine this.trans ?_
      dsimp only
      rw [show e + 1 - st.start = (st.prev + 1 - st.start) + 1 by omega, List.range'_concat]
      simp
      omega
    · rw [if_neg hc]
      dsimp only
      refine (ih ⟨_, _, e, e⟩ (done ++ List.range' st.start (st.prev + 1 - st.start)) hes' he (Nat.le_refl _) ?_).trans ?_
      · dsimp only
        rw [appendValue_toks max (st.results, st.current) (isTok_token st.start st.prev), expandAll_append, hd]
        simp [expandAll, expand_token hle]
      · simp

/-- **C30.**  The lines written for a list of indices denote exactly this list, whatever the limit of length. -/
theorem ranges_decoded (max : Nat) (es : List Nat) (h : ∀ e ∈ es, e < NO_ID) : readRanges (formatRangeChunks max es) = some es := by
  cases es with
  | nil => rfl
  | cons e es =>
    have he := h e (by simp)
    have := loop_decoded max es ⟨[], [], e, e⟩ [] (fun x hx => h x (by simp [hx])) he (Nat.le_refl _) (by simp [split, expandAll])
    refine this.trans ?_
    simp

/-- The indices of the file are those of the mesh plus one. -/
example : formatRangeChunks 1500 [1, 2, 3, 5, 9, 10] = [cs!"1-3 5 9-10"] := by decide +kernel
example : formatRangeChunks 6 [1, 2, 3, 5, 9, 10] = [cs!"1-3 5", cs!"9-10"] := by decide +kernel

/-! ## Length of the lines -/

theorem showNatAux_length (fuel : Nat) : ∀ (k n : Nat) (acc : Str), n < 10 ^ (k + 1) →
    (showNatAux fuel n acc).length ≤ k + 1 + acc.length := by
  induction fuel with
  | zero => intro k n acc _; simp only [showNatAux]; omega
  | succ fuel ih =>
    intro k n acc h
    rw [showNatAux]
    split
    · simp only [List.length_cons]; omega
    · cases k with
      | zero => omega
      | succ k =>
        have := ih k (n / 10) (digitChar (n % 10) :: acc) (by
          rw [Nat.div_lt_iff_lt_mul (by decide)]
          rw [Nat.pow_succ] at h
          exact h)
        simp only [List.length_cons] at this
        omega

theorem showNat_length {n : Nat} (h : n < W) : (showNat n).length ≤ 10 := by
  have := showNatAux_length (n + 1) 9 n [] (by unfold W at h; omega)
  exact this

theorem token_length {s p : Nat} (hs : s < W) (hp : p < W) : (token s p).length ≤ 21 := by
  have h1 := showNat_length hs
  have h2 := showNat_length hp
  unfold token
  split
  · omega
  · simp only [List.length_append, List.length_cons]; omega

theorem appendValue_length {max : Nat} {st : List Str × Str} {tmp : Str} (hmax : 21 ≤ max) (ht : tmp.length ≤ 21)
    (hst : ∀ l ∈ st.1 ++ [st.2], l.length ≤ max) :
    ∀ l ∈ (appendValue max st tmp).1 ++ [(appendValue max st tmp).2], l.length ≤ max := by
  unfold appendValue
  by_cases hc : st.2.length + tmp.length + 1 > max
  · simp only [hc, if_true, List.nil_append]
    intro l hl
    rcases List.mem_append.1 hl with h | h
    · exact hst l h
    · rw [List.mem_singleton] at h; subst h; omega
  · simp only [hc, if_false]
    intro l hl
    rcases List.mem_append.1 hl with h | h
    · exact hst l (List.mem_append_left _ h)
    · rw [List.mem_singleton] at h
      subst h
      split
      · simp only [List.nil_append]; omega
      · simp only [List.length_append, List.length_cons, List.length_nil]; omega

theorem loop_length {max : Nat} (hmax : 21 ≤ max) (es : List Nat) : ∀ st : ChunkState, (∀ e ∈ es, e < W) → st.prev < W → st.start < W →
    (∀ l ∈ st.results ++ [st.current], l.length ≤ max) → ∀ l ∈ finish max (es.foldl (chunkStep max) st), l.length ≤ max := by
  induction es with
  | nil =>
    intro st _ hp hs hst l hl
    have := appendValue_length (st := (st.results, st.current)) hmax (token_length hs hp) hst
    unfold finish at hl
    rw [List.foldl_nil] at hl
    dsimp only at hl
    split at hl
    · exact this l (List.mem_append_left _ hl)
    · exact this l hl
  | cons e es ih =>
    intro st hes hp hs hst
    rw [List.foldl_cons]
    have hes' : ∀ e ∈ es, e < W := fun x hx => hes x (by simp [hx])
    have he := hes e (by simp)
    unfold chunkStep
    split
    · exact ih _ hes' he hs hst
    · exact ih ⟨_, _, e, e⟩ hes' he he (appendValue_length (st := (st.results, st.current)) hmax (token_length hs hp) hst)

/-- **C31.**  No line is longer than the limit. -/
theorem lines_short {max : Nat} (hmax : 21 ≤ max) (es : List Nat) (h : ∀ e ∈ es, e < W) :
    ∀ l ∈ formatRangeChunks max es, l.length ≤ max := by
  cases es with
  | nil => simp [formatRangeChunks]
  | cons e es =>
    have he := h e (by simp)
    exact loop_length hmax es ⟨[], [], e, e⟩ (fun x hx => h x (by simp [hx])) he he (by simp)

/-- **C31 for the files**: the limit is 1500 characters. -/
theorem file_lines_short (es : List Nat) (h : ∀ e ∈ es, e < W) : ∀ l ∈ formatRangeChunks CHUNK_SIZE es, l.length ≤ 1500 :=
  lines_short (by decide) es h

/-- **C31: no empty line**, and hence every line has at least one whole range. -/
theorem lines_not_empty {max : Nat} (hmax : 22 ≤ max) (es : List Nat) (h : ∀ e ∈ es, e < W) :
    ∀ l ∈ formatRangeChunks max es, l ≠ [] := by
  have step : ∀ (st : List Str × Str) (s p : Nat), s < W → p < W → (∀ l ∈ st.1, l ≠ []) →
      ∀ l ∈ (appendValue max st (token s p)).1, l ≠ [] := by
    intro st s p hs hp hst
    have ht := token_length hs hp
    unfold appendValue
    by_cases hc : st.2.length + (token s p).length + 1 > max
    · simp only [hc, if_true]
      intro l hl
      rcases List.mem_append.1 hl with h | h
      · exact hst l h
      · rw [List.mem_singleton] at h
        subst h
        intro e
        rw [e] at hc
        simp only [List.length_nil] at hc
        omega
    · simp only [hc, if_false]; exact hst
  have fin : ∀ st : ChunkState, st.start < W → st.prev < W → (∀ l ∈ st.results, l ≠ []) → ∀ l ∈ finish max st, l ≠ [] := by
    intro st hs hp hst l hl
    unfold finish at hl
    dsimp only at hl
    split at hl
    · exact step _ _ _ hs hp hst l hl
    · rename_i hne
      rcases List.mem_append.1 hl with h | h
      · exact step _ _ _ hs hp hst l h
      · rw [List.mem_singleton] at h; rw [h]; exact hne
  have loop : ∀ (es : List Nat) (st : ChunkState), (∀ e ∈ es, e < W) → st.start < W → st.prev < W → (∀ l ∈ st.results, l ≠ []) →
      ∀ l ∈ finish max (es.foldl (chunkStep max) st), l ≠ [] := by
    intro es
    induction es with
    | nil => intro st _ hs hp hst; exact fin st hs hp hst
    | cons e es ih =>
      intro st hes hs hp hst
      rw [List.foldl_cons]
      have hes' : ∀ e ∈ es, e < W := fun x hx => hes x (by simp [hx])
      have he := hes e (by simp)
      unfold chunkStep
      split
      · exact ih _ hes' hs he hst
      · exact ih ⟨_, _, e, e⟩ hes' he he (step _ _ _ hs hp hst)
  cases es with
  | nil => simp [formatRangeChunks]
  | cons e es =>
    have he := h e (by simp)
    exact loop es ⟨[], [], e, e⟩ (fun x hx => h x (by simp [hx])) he he (by simp)

end Verif.Props.FemRanges
