import Verif.Base.Text

/-! # Lemmas on text: splitting undoes joining, decimal numbers round trip -/

namespace Verif

@[simp] theorem isWs_space : isWs ' ' = true := rfl

@[simp] theorem split_nil : split [] = [] := rfl

theorem split_cons_ws {c : Char} (h : isWs c = true) (s : Str) : split (c :: s) = split s := by
  cases s <;> simp [split, h]

@[simp] theorem split_space (s : Str) : split (' ' :: s) = split s := split_cons_ws rfl s

theorem split_ne_nil {c : Char} (h : isWs c = false) (s : Str) : split (c :: s) ≠ [] := by
  cases s with
  | nil => rw [split]; simp [h]
  | cons d s =>
    rw [split]
    simp only [h]
    by_cases hd : isWs d = true
    · simp [hd]
    · simp only [hd]
      cases hs : split (d :: s) <;> simp

theorem split_cons_cons {c d : Char} (hc : isWs c = false) (hd : isWs d = false) (s : Str) :
    ∃ t ts, split (d :: s) = t :: ts ∧ split (c :: d :: s) = (c :: t) :: ts := by
  cases hs : split (d :: s) with
  | nil => exact absurd hs (split_ne_nil hd s)
  | cons t ts =>
    refine ⟨t, ts, rfl, ?_⟩
    rw [split]; simp [hc, hd, hs]

theorem split_single {c : Char} (h : isWs c = false) : split [c] = [[c]] := by
  rw [split]; simp [h]

theorem split_cons_then_ws {c d : Char} (hc : isWs c = false) (hd : isWs d = true) (s : Str) :
    split (c :: d :: s) = [c] :: split s := by
  rw [split]; simp [hc, hd, split_cons_ws hd]

/-- Splitting distributes over a blank. -/
theorem split_append_ws (a b : Str) {w : Char} (hw : isWs w = true) :
    split (a ++ w :: b) = split a ++ split b := by
  induction a with
  | nil => simp [split_cons_ws hw]
  | cons c a ih =>
    by_cases hc : isWs c = true
    · simp only [List.cons_append]
      rw [split_cons_ws hc, split_cons_ws hc, ih]
    · have hc' : isWs c = false := by simpa using hc
      cases a with
      | nil =>
        simp only [List.cons_append, List.nil_append]
        rw [split_cons_then_ws hc' hw, split_single hc']; rfl
      | cons d a =>
        simp only [List.cons_append] at ih ⊢
        by_cases hd : isWs d = true
        · rw [split_cons_then_ws hc' hd, split_cons_then_ws hc' hd]
          rw [split_cons_ws hd, split_cons_ws hd] at ih
          rw [ih]; rfl
        · have hd' : isWs d = false := by simpa using hd
          obtain ⟨t, ts, h1, h2⟩ := split_cons_cons hc' hd' (a ++ w :: b)
          obtain ⟨t', ts', h1', h2'⟩ := split_cons_cons hc' hd' a
          rw [h2, h2']
          rw [h1, h1'] at ih
          simp only [List.cons_append] at ih ⊢
          injection ih with e1 e2
          rw [e1, e2]

theorem split_append_space (a b : Str) : split (a ++ ' ' :: b) = split a ++ split b :=
  split_append_ws a b rfl

theorem split_tok {t : Str} (h : IsTok t) : split t = [t] := by
  obtain ⟨hne, hws⟩ := h
  induction t with
  | nil => exact absurd rfl hne
  | cons c t ih =>
    have hc : isWs c = false := hws c (by simp)
    cases t with
    | nil => exact split_single hc
    | cons d t =>
      have hd : isWs d = false := hws d (by simp)
      obtain ⟨u, us, h1, h2⟩ := split_cons_cons hc hd t
      rw [ih (by simp) (fun x hx => hws x (by simp [hx]))] at h1
      injection h1 with e1 e2
      rw [h2, ← e1, ← e2]

theorem split_tok_append {t : Str} (h : IsTok t) (r : Str) : split (t ++ ' ' :: r) = t :: split r := by
  rw [split_append_space, split_tok h]; rfl

/-- Every piece of a split line is a token. -/
theorem isTok_of_mem_split {s t : Str} (h : t ∈ split s) : IsTok t := by
  induction s generalizing t with
  | nil => simp at h
  | cons c s ih =>
    by_cases hc : isWs c = true
    · rw [split_cons_ws hc] at h; exact ih h
    · have hc' : isWs c = false := by simpa using hc
      cases s with
      | nil =>
        rw [split_single hc'] at h
        simp at h; subst h
        exact ⟨by simp, by simpa using hc'⟩
      | cons d s =>
        by_cases hd : isWs d = true
        · rw [split_cons_then_ws hc' hd] at h
          rw [split_cons_ws hd] at ih
          rcases List.mem_cons.1 h with h | h
          · subst h; exact ⟨by simp, by simpa using hc'⟩
          · exact ih h
        · have hd' : isWs d = false := by simpa using hd
          obtain ⟨u, us, h1, h2⟩ := split_cons_cons hc' hd' s
          rw [h2] at h
          rw [h1] at ih
          rcases List.mem_cons.1 h with h | h
          · subst h
            have := ih (t := u) (by simp)
            refine ⟨by simp, ?_⟩
            intro x hx
            rcases List.mem_cons.1 hx with hx | hx
            · rw [hx]; exact hc'
            · exact this.2 x hx
          · exact ih (by simp [h])

theorem split_join {ts : List Str} (h : ∀ t ∈ ts, IsTok t) : split (join ts) = ts := by
  induction ts with
  | nil => rfl
  | cons t ts ih =>
    cases ts with
    | nil => exact split_tok (h t (by simp))
    | cons u us =>
      rw [join]
      · rw [split_tok_append (h t (by simp)), ih (fun x hx => h x (by simp [hx]))]
      · simp

theorem split_append_spaced (a : Str) {ts : List Str} (h : ∀ t ∈ ts, IsTok t) :
    split (a ++ spaced ts) = split a ++ ts := by
  induction ts generalizing a with
  | nil => simp [spaced]
  | cons t ts ih =>
    have ht := split_tok (h t (by simp))
    rw [spaced]
    have : a ++ (' ' :: t ++ spaced ts) = (a ++ ' ' :: t) ++ spaced ts := by simp
    rw [this, ih _ (fun x hx => h x (by simp [hx])), split_append_space, ht]
    simp

theorem split_spaced {ts : List Str} (h : ∀ t ∈ ts, IsTok t) : split (spaced ts) = ts := by
  simpa using split_append_spaced [] h

theorem spaced_append (a b : List Str) : spaced (a ++ b) = spaced a ++ spaced b := by
  induction a with
  | nil => rfl
  | cons t ts ih => simp [spaced, ih]

/-- Joining the pieces of a line whose words are separated by single blanks gives the line back. -/
theorem join_split_join {ts : List Str} (h : ∀ t ∈ ts, IsTok t) : join (split (join ts)) = join ts := by
  rw [split_join h]

/-! ## Prefixes -/

@[simp] theorem startsWith_append (p s : Str) : startsWith (p ++ s) p = true := by
  simp [startsWith]

@[simp] theorem startsWith_self (p : Str) : startsWith p p = true := by
  simp [startsWith]

/-! ## Decimal numbers -/

theorem digitVal_digitChar {d : Nat} (h : d < 10) : digitVal (digitChar d) = some d := by
  have : ∀ d : Fin 10, digitVal (digitChar d.val) = some d.val := by decide
  exact this ⟨d, h⟩

theorem digitChar_facts {d : Nat} (h : d < 10) :
    isWs (digitChar d) = false ∧ digitChar d ≠ '"' ∧ digitChar d ≠ '+' ∧ digitChar d ≠ '-' := by
  have : ∀ d : Fin 10, isWs (digitChar d.val) = false ∧ digitChar d.val ≠ '"' ∧ digitChar d.val ≠ '+'
      ∧ digitChar d.val ≠ '-' := by decide
  exact this ⟨d, h⟩

theorem digitsVal_append (acc : Nat) (a b : Str) :
    digitsVal acc (a ++ b) = (digitsVal acc a).bind (fun v => digitsVal v b) := by
  induction a generalizing acc with
  | nil => rfl
  | cons c a ih =>
    simp only [List.cons_append, digitsVal]
    cases digitVal c with
    | none => rfl
    | some d => exact ih _

/-- All characters of the text are decimal digits. -/
def AllDigits (s : Str) : Prop := ∀ c ∈ s, ∃ d, d < 10 ∧ c = digitChar d

theorem showNatAux_spec (fuel n : Nat) (acc : Str) (h : n < fuel) :
    ∃ p, showNatAux fuel n acc = p ++ acc ∧ p ≠ [] ∧ AllDigits p ∧ digitsVal 0 p = some n := by
  induction fuel generalizing n acc with
  | zero => omega
  | succ fuel ih =>
    rw [showNatAux]
    by_cases h10 : n < 10
    · refine ⟨[digitChar n], by simp [h10], by simp, ?_, ?_⟩
      · intro c hc; simp at hc; exact ⟨n, h10, hc⟩
      · simp [digitsVal, digitVal_digitChar h10]
    · rw [if_neg h10]
      obtain ⟨p, h1, h2, h3, h4⟩ := ih (n / 10) (digitChar (n % 10) :: acc) (by omega)
      have hm : n % 10 < 10 := Nat.mod_lt _ (by omega)
      refine ⟨p ++ [digitChar (n % 10)], by simp [h1], by simp, ?_, ?_⟩
      · intro c hc
        rcases List.mem_append.1 hc with hc | hc
        · exact h3 c hc
        · simp at hc; exact ⟨_, hm, hc⟩
      · rw [digitsVal_append, h4]
        simp [digitsVal, digitVal_digitChar hm]
        omega

theorem showNat_spec (n : Nat) : showNat n ≠ [] ∧ AllDigits (showNat n) ∧ digitsVal 0 (showNat n) = some n := by
  obtain ⟨p, h1, h2, h3, h4⟩ := showNatAux_spec (n + 1) n [] (by omega)
  have : showNat n = p := by simpa [showNat] using h1
  rw [this]; exact ⟨h2, h3, h4⟩

theorem isTok_showNat (n : Nat) : IsTok (showNat n) := by
  obtain ⟨h1, h2, _⟩ := showNat_spec n
  refine ⟨h1, fun c hc => ?_⟩
  obtain ⟨d, hd, rfl⟩ := h2 c hc
  exact (digitChar_facts hd).1

theorem quote_not_mem_showNat (n : Nat) : '"' ∉ showNat n := by
  intro h
  obtain ⟨d, hd, e⟩ := (showNat_spec n).2.1 _ h
  exact (digitChar_facts hd).2.1 e.symm

theorem showNat_cons (n : Nat) : ∃ d r, d < 10 ∧ showNat n = digitChar d :: r := by
  obtain ⟨h1, h2, _⟩ := showNat_spec n
  cases hs : showNat n with
  | nil => exact absurd hs h1
  | cons c r =>
    rw [hs] at h2
    obtain ⟨d, hd, rfl⟩ := h2 c (by simp)
    exact ⟨d, r, hd, rfl⟩

theorem parseNat_showNat (n : Nat) : parseNat (showNat n) = some n := by
  obtain ⟨h1, _, h3⟩ := showNat_spec n
  cases hs : showNat n with
  | nil => exact absurd hs h1
  | cons c r => rw [hs] at h3; exact h3

theorem parseIndex_showNat {n : Nat} (h : n < W) : parseIndex (showNat n) = some n := by
  obtain ⟨d, r, hd, e⟩ := showNat_cons n
  have hp := parseNat_showNat n
  unfold parseIndex
  have hne := (digitChar_facts hd).2.2.1
  rw [e] at hp ⊢
  simp [dropPlus, hne, hp, h]

theorem parseIndex_lt {s : Str} {n : Nat} (h : parseIndex s = some n) : n < W := by
  unfold parseIndex at h
  split at h
  · split at h
    · simp at h; omega
    · simp at h
  · simp at h

@[simp] theorem readIndex_showNat {n : Nat} (h : n < W) : readIndex (showNat n) = .ok n := by
  simp [readIndex, parseIndex_showNat h]

theorem showNat_injective {m n : Nat} (h : showNat m = showNat n) : m = n := by
  have h1 := parseNat_showNat m
  rw [h, parseNat_showNat] at h1
  injection h1 with h1; exact h1.symm

theorem parseInt_showInt {z : Int} (h1 : -2147483648 ≤ z) (h2 : z < 2147483648) :
    parseInt (showInt z) = some z := by
  cases z with
  | ofNat n =>
    obtain ⟨d, r, hd, e⟩ := showNat_cons n
    have hp := parseNat_showNat n
    have f := digitChar_facts hd
    have hn : n < 2147483648 := by
      simp only [Int.ofNat_eq_natCast] at h2; omega
    rw [showInt, e] at *
    unfold parseInt
    split
    · next h' => simp only [List.cons.injEq] at h'; exact absurd h'.1 f.2.2.2
    · next h' => simp only [List.cons.injEq] at h'; exact absurd h'.1 f.2.2.1
    · simp [hp, hn]
  | negSucc n =>
    have hn : n + 1 ≤ 2147483648 := by omega
    rw [showInt]
    simp [parseInt, parseNat_showNat, hn]
    omega

theorem isTok_showInt (z : Int) : IsTok (showInt z) := by
  cases z with
  | ofNat n => exact isTok_showNat n
  | negSucc n =>
    refine ⟨by simp [showInt], fun c hc => ?_⟩
    rcases List.mem_cons.1 hc with rfl | hc
    · rfl
    · exact (isTok_showNat _).2 c hc

/-! ## 32-bit subtraction -/

theorem sub32_of_le {a b : Nat} (h : b ≤ a) (ha : a < W) : sub32 a b = a - b := by
  unfold sub32
  have : a + W - b = (a - b) + W := by omega
  rw [this, Nat.add_mod_right, Nat.mod_eq_of_lt (by omega)]

@[simp] theorem sub32_zero {a : Nat} (ha : a < W) : sub32 a 0 = a := by
  rw [sub32_of_le (Nat.zero_le _) ha]; rfl

theorem sub32_lt (a b : Nat) : sub32 a b < W := Nat.mod_lt _ (by decide)

end Verif
