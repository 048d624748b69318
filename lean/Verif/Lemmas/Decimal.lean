import Verif.Model.Decimal
import Mathlib.Tactic.Linarith
import Mathlib.Tactic.Positivity
import Mathlib.Tactic.NormNum
import Mathlib.Tactic.FieldSimp
import Mathlib.Tactic.Ring

/-!
# Six digits: rounding, writing and reading of numbers
-/

namespace Verif.Decimal

/-! ## Rounding -/

theorem nearest_close (q : ℚ) : |(nearest q : ℚ) - q| ≤ 1 / 2 := by
  have h1 := Int.floor_le q
  have h2 := Int.lt_floor_add_one q
  rw [abs_le]
  unfold nearest
  split
  · constructor <;> linarith
  · split
    · push_cast
      constructor <;> linarith
    · split
      · constructor <;> linarith
      · push_cast
        constructor <;> linarith

/-- An integer nearer than one half is the nearest. -/
theorem nearest_eq {q : ℚ} {n : ℤ} (h : |q - n| < 1 / 2) : nearest q = n := by
  have h1 := nearest_close q
  rw [abs_le] at h1
  rw [abs_lt] at h
  have a : ((nearest q : ℤ) : ℚ) < (n : ℚ) + 1 := by linarith
  have b : ((n : ℤ) : ℚ) < (nearest q : ℚ) + 1 := by linarith
  have a' : nearest q < n + 1 := by exact_mod_cast a
  have b' : n < nearest q + 1 := by exact_mod_cast b
  omega

/-- Of two integers at the same distance the even one is taken. -/
theorem nearest_tie {q : ℚ} {n : ℤ} (h : q = n + 1 / 2) : nearest q % 2 = 0 ∧ (nearest q = n ∨ nearest q = n + 1) := by
  have hf : ⌊q⌋ = n := by
    rw [Int.floor_eq_iff, h]
    constructor <;> linarith
  have hr : q - (⌊q⌋ : ℚ) = 1 / 2 := by rw [hf, h]; ring
  unfold nearest
  rw [hr, if_neg (lt_irrefl _), if_neg (lt_irrefl _), hf]
  split <;> omega

theorem log_eq {b : ℕ} (hb : 1 < b) {q : ℚ} {x : ℤ} (h1 : (b : ℚ) ^ x ≤ q) (h2 : q < (b : ℚ) ^ (x + 1)) : Int.log b q = x := by
  have hb' : (0 : ℚ) < b := by exact_mod_cast (by omega : 0 < b)
  have hq : 0 < q := lt_of_lt_of_le (zpow_pos hb' x) h1
  have a := (Int.zpow_le_iff_le_log hb hq).1 h1
  have c := (Int.lt_zpow_iff_log_lt hb hq).1 h2
  omega

section
variable {b p : ℕ}

theorem pow_cast (hp : 1 ≤ p) : (b : ℚ) ^ ((p : ℤ) - 1) = ((b ^ (p - 1) : ℕ) : ℚ) := by
  obtain ⟨k, rfl⟩ := Nat.exists_eq_add_of_le hp
  have : ((1 + k : ℕ) : ℤ) - 1 = (k : ℤ) := by push_cast; ring
  rw [this, zpow_natCast]
  simp

theorem pow_pred (hp : 1 ≤ p) : ((b ^ p : ℕ) : ℚ) = b * ((b ^ (p - 1) : ℕ) : ℚ) := by
  obtain ⟨k, rfl⟩ := Nat.exists_eq_add_of_le hp
  rw [show 1 + k - 1 = k by omega, Nat.add_comm, pow_succ]
  push_cast
  ring

/-- A positive number has its first digit at the first place. -/
theorem place_spec (hb : 1 < b) (hp : 1 ≤ p) {q : ℚ} (hq : 0 < q) :
    ((b ^ (p - 1) : ℕ) : ℚ) * (b : ℚ) ^ place b p q ≤ q ∧ q < ((b ^ p : ℕ) : ℚ) * (b : ℚ) ^ place b p q := by
  have hb' : (b : ℚ) ≠ 0 := by exact_mod_cast (by omega : b ≠ 0)
  have h1 := Int.zpow_log_le_self hb hq
  have h2 := Int.lt_zpow_succ_log_self hb q
  have e : (b : ℚ) ^ Int.log b q = ((b ^ (p - 1) : ℕ) : ℚ) * (b : ℚ) ^ place b p q := by
    rw [← pow_cast hp, ← zpow_add₀ hb', place]
    congr 1
    omega
  have e' : (b : ℚ) ^ (Int.log b q + 1) = ((b ^ p : ℕ) : ℚ) * (b : ℚ) ^ place b p q := by
    rw [pow_pred hp, mul_assoc, ← e, zpow_add₀ hb', zpow_one, mul_comm]
  exact ⟨e ▸ h1, e' ▸ h2⟩

/-- Numbers near a number with `p` digits are rounded to it. -/
theorem roundPos_eq (hb : 1 < b) (hp : 1 ≤ p) {m : ℕ} {e : ℤ} (h1 : b ^ (p - 1) ≤ m) (h2 : m < b ^ p) {q δ : ℚ} (hd : δ * (b ^ p : ℕ) < 1 / 2)
    (h0 : 0 ≤ δ) (h : |q - m * (b : ℚ) ^ e| ≤ δ * (m * (b : ℚ) ^ e)) : roundPos b p q = m * (b : ℚ) ^ e := by
  have hbn : (b : ℚ) ≠ 0 := by exact_mod_cast (by omega : b ≠ 0)
  have hb0 : (0 : ℚ) < b := by exact_mod_cast (by omega : 0 < b)
  have hb2 : (2 : ℚ) ≤ b := by exact_mod_cast hb
  have hw : (0 : ℚ) < (b : ℚ) ^ e := zpow_pos hb0 e
  set w := (b : ℚ) ^ e with hwe
  have hB : (1 : ℚ) ≤ ((b ^ (p - 1) : ℕ) : ℚ) := by exact_mod_cast Nat.one_le_pow _ _ (by omega)
  have hP := pow_pred (b := b) hp
  set B := ((b ^ (p - 1) : ℕ) : ℚ) with hBe
  set P := ((b ^ p : ℕ) : ℚ) with hPe
  have hmB : B ≤ (m : ℚ) := by rw [hBe]; exact_mod_cast h1
  have hmP : (m : ℚ) + 1 ≤ P := by rw [hPe]; exact_mod_cast h2
  -- the scaled number
  obtain ⟨t, ht⟩ : ∃ t, q = t * w := ⟨q / w, by field_simp⟩
  have hdm : δ * m < 1 / 2 := by
    have : δ * (m : ℚ) ≤ δ * P := mul_le_mul_of_nonneg_left (by linarith) h0
    linarith
  have htm : |t - m| ≤ δ * m := by
    have e1 : q - m * w = (t - m) * w := by rw [ht]; ring
    rw [e1, abs_mul, abs_of_pos hw, ← mul_assoc] at h
    exact le_of_mul_le_mul_right h hw
  have ht2 := abs_le.1 htm
  by_cases hc : B ≤ t
  · have hl : Int.log b q = e + (p - 1) := by
      apply log_eq hb
      · rw [zpow_add₀ hbn, pow_cast hp, ht, ← hBe, ← hwe, mul_comm]
        exact mul_le_mul_of_nonneg_right hc hw.le
      · rw [zpow_add₀ hbn, zpow_add₀ hbn, pow_cast hp, ht, ← hBe, ← hwe, zpow_one]
        have : t < b * B := by rw [← hP]; linarith
        calc t * w < (b * B) * w := mul_lt_mul_of_pos_right this hw
          _ = w * B * b := by ring
    have hpl : place b p q = e := by rw [place, hl]; ring
    rw [roundPos, hpl, ← hwe, ht, mul_div_assoc, div_self hw.ne', mul_one, nearest_eq (n := (m : ℤ))]
    · simp
    · push_cast
      exact lt_of_le_of_lt htm hdm
  · have hmb : (m : ℚ) = B := by
      by_contra hne
      have : B + 1 ≤ (m : ℚ) := by
        rw [hBe]
        have : b ^ (p - 1) ≠ m := fun e => hne (by rw [hBe, e])
        exact_mod_cast (by omega : b ^ (p - 1) + 1 ≤ m)
      linarith
    have hw1 : (b : ℚ) ^ (e - 1) * b = w := by rw [hwe, ← zpow_add_one₀ hbn]; congr 1; ring
    have hw1p : (0 : ℚ) < (b : ℚ) ^ (e - 1) := zpow_pos hb0 _
    set v := (b : ℚ) ^ (e - 1) with hve
    have hl : Int.log b q = e + (p - 1) - 1 := by
      apply log_eq hb
      · have e2 : (b : ℚ) ^ (e + ((p : ℤ) - 1) - 1) = v * B := by
          rw [show e + ((p : ℤ) - 1) - 1 = (e - 1) + ((p : ℤ) - 1) by ring, zpow_add₀ hbn, pow_cast hp]
        rw [e2, ht, ← hw1]
        have h3 : B ≤ b * t := by nlinarith
        calc v * B ≤ v * (b * t) := mul_le_mul_of_nonneg_left h3 hw1p.le
          _ = t * (v * b) := by ring
      · rw [show e + ((p : ℤ) - 1) - 1 + 1 = e + ((p : ℤ) - 1) by ring, zpow_add₀ hbn, pow_cast hp, ht, ← hwe, mul_comm]
        exact mul_lt_mul_of_pos_left (not_le.1 hc) hw
    have hpl : place b p q = e - 1 := by rw [place, hl]; ring
    have hq' : q / v = t * b := by rw [ht, ← hw1]; field_simp
    rw [roundPos, hpl, ← hve, hq', nearest_eq (n := ((b ^ p : ℕ) : ℤ))]
    · rw [hmb, ← hw1, Int.cast_natCast, ← hPe, hP]; ring
    · rw [Int.cast_natCast, ← hPe, hP, ← hmb]
      have : t * b - b * m = (t - m) * b := by ring
      rw [this, abs_mul, abs_of_pos hb0]
      have h4 : |t - m| * b ≤ δ * m * b := mul_le_mul_of_nonneg_right htm hb0.le
      have h5 : δ * m * b = δ * P := by rw [hP, ← hmb]; ring
      linarith

/-- A positive number is rounded to a number with `p` digits. -/
theorem roundPos_sig (hb : 1 < b) (hp : 1 ≤ p) {q : ℚ} (hq : 0 < q) :
    ∃ (m : ℕ) (e : ℤ), b ^ (p - 1) ≤ m ∧ m < b ^ p ∧ roundPos b p q = m * (b : ℚ) ^ e := by
  have hbn : (b : ℚ) ≠ 0 := by exact_mod_cast (by omega : b ≠ 0)
  have hb0 : (0 : ℚ) < b := by exact_mod_cast (by omega : 0 < b)
  obtain ⟨h1, h2⟩ := place_spec hb hp hq
  have hw : (0 : ℚ) < (b : ℚ) ^ place b p q := zpow_pos hb0 _
  have h3 := abs_le.1 (nearest_close (q / (b : ℚ) ^ place b p q))
  rw [← le_div_iff₀ hw] at h1
  rw [← div_lt_iff₀ hw] at h2
  have a : (b ^ (p - 1) : ℕ) < nearest (q / (b : ℚ) ^ place b p q) + 1 := by
    have : ((b ^ (p - 1) : ℕ) : ℚ) < (nearest (q / (b : ℚ) ^ place b p q) : ℚ) + 1 := by linarith
    exact_mod_cast this
  have c : nearest (q / (b : ℚ) ^ place b p q) < (b ^ p : ℕ) + 1 := by
    have : (nearest (q / (b : ℚ) ^ place b p q) : ℚ) < ((b ^ p : ℕ) : ℚ) + 1 := by linarith
    exact_mod_cast this
  obtain ⟨m, hm⟩ := Int.eq_ofNat_of_zero_le (a := nearest (q / (b : ℚ) ^ place b p q)) (by omega)
  rw [hm] at a c
  have e : roundPos b p q = (m : ℚ) * (b : ℚ) ^ place b p q := by rw [roundPos, hm, Int.cast_natCast]
  by_cases hc : m < b ^ p
  · exact ⟨m, place b p q, by omega, hc, e⟩
  · have hm' : m = b ^ p := by omega
    refine ⟨b ^ (p - 1), place b p q + 1, le_refl _, Nat.pow_lt_pow_right hb (by omega), ?_⟩
    rw [e, hm', pow_pred hp, zpow_add_one₀ hbn]
    ring

/-- Rounding moves a number by half a unit of its last digit. -/
theorem roundPos_close (hb : 1 < b) (hp : 1 ≤ p) {q : ℚ} (hq : 0 < q) : |roundPos b p q - q| * (2 * (b ^ (p - 1) : ℕ)) ≤ q := by
  have hb0 : (0 : ℚ) < b := by exact_mod_cast (by omega : 0 < b)
  obtain ⟨h1, _⟩ := place_spec hb hp hq
  have hw : (0 : ℚ) < (b : ℚ) ^ place b p q := zpow_pos hb0 _
  have h3 := nearest_close (q / (b : ℚ) ^ place b p q)
  have e : roundPos b p q - q = ((nearest (q / (b : ℚ) ^ place b p q) : ℚ) - q / (b : ℚ) ^ place b p q) * (b : ℚ) ^ place b p q := by
    rw [roundPos]
    field_simp
  rw [e, abs_mul, abs_of_pos hw]
  have hB : (0 : ℚ) ≤ ((b ^ (p - 1) : ℕ) : ℚ) := Nat.cast_nonneg _
  have h4 : |(nearest (q / (b : ℚ) ^ place b p q) : ℚ) - q / (b : ℚ) ^ place b p q| * (b : ℚ) ^ place b p q ≤ 1 / 2 * (b : ℚ) ^ place b p q :=
    mul_le_mul_of_nonneg_right h3 hw.le
  have h5 := mul_le_mul_of_nonneg_right h4 (show (0 : ℚ) ≤ 2 * ((b ^ (p - 1) : ℕ) : ℚ) by linarith)
  refine le_trans h5 ?_
  linarith

theorem roundTo_neg (q : ℚ) : roundTo b p (-q) = -roundTo b p q := by
  unfold roundTo
  rcases lt_trichotomy q 0 with h | h | h
  · rw [if_neg (by linarith : ¬ -q = 0), if_neg (by linarith : ¬ -q < 0), if_neg (by linarith : ¬ q = 0), if_pos h, neg_neg]
  · simp [h]
  · rw [if_neg (by linarith : ¬ -q = 0), if_pos (by linarith : -q < 0), if_neg (by linarith : ¬ q = 0), if_neg (by linarith : ¬ q < 0), neg_neg]

theorem roundTo_pos {q : ℚ} (h : 0 < q) : roundTo b p q = roundPos b p q := by
  rw [roundTo, if_neg h.ne', if_neg (by linarith)]

theorem roundTo_zero : roundTo b p 0 = 0 := by simp [roundTo]

theorem IsSig.neg {q : ℚ} (h : IsSig b p q) : IsSig b p (-q) := by
  rcases h with h | ⟨m, e, h1, h2, h3⟩
  · exact Or.inl (by rw [h, neg_zero])
  · exact Or.inr ⟨m, e, h1, h2, by rw [abs_neg, h3]⟩

/-- The result of rounding has `p` digits. -/
theorem roundTo_sig (hb : 1 < b) (hp : 1 ≤ p) (q : ℚ) : IsSig b p (roundTo b p q) := by
  have key : ∀ q : ℚ, 0 < q → IsSig b p (roundTo b p q) := by
    intro q h
    obtain ⟨m, e, h1, h2, h3⟩ := roundPos_sig hb hp h
    have hb0 : (0 : ℚ) < b := by exact_mod_cast (by omega : 0 < b)
    refine Or.inr ⟨m, e, h1, h2, ?_⟩
    rw [roundTo_pos h, h3, abs_of_nonneg]
    exact mul_nonneg (Nat.cast_nonneg _) (zpow_pos hb0 e).le
  rcases lt_trichotomy q 0 with h | h | h
  · have := (key (-q) (by linarith)).neg
    rwa [roundTo_neg, neg_neg] at this
  · exact Or.inl (by rw [h, roundTo_zero])
  · exact key q h

/-- Rounding moves a number by half a unit of its last digit. -/
theorem roundTo_close (hb : 1 < b) (hp : 1 ≤ p) (q : ℚ) : |roundTo b p q - q| * (2 * (b ^ (p - 1) : ℕ)) ≤ |q| := by
  rcases lt_trichotomy q 0 with h | h | h
  · have := roundPos_close hb hp (q := -q) (by linarith)
    rw [← roundTo_pos (by linarith), roundTo_neg, ← abs_neg] at this
    rw [abs_of_neg h]
    refine le_trans (le_of_eq ?_) this
    congr 2
    ring
  · simp [h, roundTo_zero]
  · rw [abs_of_pos h, roundTo_pos h]
    exact roundPos_close hb hp h

/-- Numbers near a number with `p` digits are rounded to it. -/
theorem roundTo_eq (hb : 1 < b) (hp : 1 ≤ p) {s q δ : ℚ} (hs : IsSig b p s) (hd : δ * (b ^ p : ℕ) < 1 / 2) (h0 : 0 ≤ δ) (h : |q - s| ≤ δ * |s|) :
    roundTo b p q = s := by
  have hb0 : (0 : ℚ) < b := by exact_mod_cast (by omega : 0 < b)
  rcases hs with hs | ⟨m, e, h1, h2, h3⟩
  · rw [hs, sub_zero, abs_zero, mul_zero] at h
    rw [hs, abs_nonpos_iff.1 h, roundTo_zero]
  · have hd1 : δ < 1 := by
      have : (1 : ℚ) ≤ ((b ^ p : ℕ) : ℚ) := by exact_mod_cast Nat.one_le_pow _ _ (by omega)
      nlinarith
    have key : ∀ s q : ℚ, 0 < s → |s| = m * (b : ℚ) ^ e → |q - s| ≤ δ * |s| → roundTo b p q = s := by
      intro s q hs h3 h
      have hs' := h3
      rw [abs_of_pos hs] at h3
      have hq : 0 < q := by
        have := (abs_le.1 h).1
        rw [abs_of_pos hs] at this
        nlinarith
      rw [roundTo_pos hq, h3]
      apply roundPos_eq hb hp h1 h2 hd h0
      rw [abs_of_pos hs] at h
      rwa [← h3]
    have hm : 0 < |s| := by
      rw [h3]
      have : 0 < m := lt_of_lt_of_le (Nat.pow_pos (by omega)) h1
      exact mul_pos (by exact_mod_cast this) (zpow_pos hb0 e)
    rcases lt_trichotomy s 0 with h4 | h4 | h4
    · have := key (-s) (-q) (by linarith) (by rw [abs_neg, h3]) (by rw [abs_neg, ← abs_neg, neg_sub, sub_neg_eq_add, neg_add_eq_sub] at *; first | exact h | (rw [abs_sub_comm]; exact h))
      rw [roundTo_neg] at this
      linarith
    · rw [h4, abs_zero] at hm
      exact absurd hm (lt_irrefl _)
    · exact key s q h4 h3 h

end

/-- Numbers with fewer digits have more digits. -/
theorem IsSig.more {b p : ℕ} (hb : 1 < b) (hp : 1 ≤ p) (k : ℕ) {q : ℚ} (h : IsSig b p q) : IsSig b (p + k) q := by
  have hbn : (b : ℚ) ≠ 0 := by exact_mod_cast (by omega : b ≠ 0)
  rcases h with h | ⟨m, e, h1, h2, h3⟩
  · exact Or.inl h
  · refine Or.inr ⟨m * b ^ k, e - k, ?_, ?_, ?_⟩
    · rw [show p + k - 1 = (p - 1) + k by omega, pow_add]
      exact Nat.mul_le_mul_right _ h1
    · rw [pow_add]
      exact Nat.mul_lt_mul_of_pos_right h2 (Nat.pow_pos (by omega))
    · rw [h3, zpow_sub₀ hbn, zpow_natCast]
      push_cast
      field_simp

/-! ## Digits -/

theorem digits_length (k n : ℕ) : (digits k n).length = k := by
  induction k generalizing n with
  | zero => rfl
  | succ k ih => simp [digits, ih]

theorem digits_all (k n : ℕ) : AllDigits (digits k n) := by
  induction k generalizing n with
  | zero => intro c hc; simp [digits] at hc
  | succ k ih =>
    intro c hc
    rcases List.mem_append.1 hc with h | h
    · exact ih _ c h
    · rw [List.mem_singleton] at h
      exact ⟨n % 10, Nat.mod_lt _ (by decide), h⟩

theorem digits_val (k n acc : ℕ) (h : n < 10 ^ k) : digitsVal acc (digits k n) = some (acc * 10 ^ k + n) := by
  induction k generalizing n with
  | zero =>
    have : n = 0 := by simpa using h
    simp [digits, digitsVal, this]
  | succ k ih =>
    rw [pow_succ] at h
    rw [digits, digitsVal_append, ih (n / 10) (by omega), Option.bind_some]
    simp only [digitsVal, digitVal_digitChar (Nat.mod_lt n (by decide : 0 < 10)), Option.some.injEq]
    rw [pow_succ]
    have : acc * (10 ^ k * 10) = 10 * (acc * 10 ^ k) := by ring
    omega

theorem digitsVal_zeros (k acc : ℕ) : digitsVal acc (List.replicate k '0') = some (acc * 10 ^ k) := by
  induction k generalizing acc with
  | zero => simp [digitsVal]
  | succ k ih =>
    have : digitVal '0' = some 0 := by decide
    simp only [List.replicate_succ, digitsVal, this]
    rw [ih, pow_succ]
    congr 1
    ring

theorem zeros_all (k : ℕ) : AllDigits (List.replicate k '0') := by
  intro c hc
  rw [List.eq_of_mem_replicate hc]
  exact ⟨0, by decide, by decide⟩

theorem AllDigits.append {a b : Str} (ha : AllDigits a) (hb : AllDigits b) : AllDigits (a ++ b) := by
  intro c hc
  rcases List.mem_append.1 hc with h | h
  · exact ha c h
  · exact hb c h

theorem AllDigits.sub {a b : Str} (h : AllDigits b) (hs : ∀ c ∈ a, c ∈ b) : AllDigits a := fun c hc => h c (hs c hc)

/-- Digits have a value. -/
theorem AllDigits.val {s : Str} (h : AllDigits s) (acc : ℕ) : ∃ n, digitsVal acc s = some n := by
  induction s generalizing acc with
  | nil => exact ⟨acc, rfl⟩
  | cons c s ih =>
    obtain ⟨d, hd, rfl⟩ := h c (by simp)
    simp only [digitsVal, digitVal_digitChar hd]
    exact ih (fun c hc => h c (List.mem_cons_of_mem _ hc)) _

/-- Only zeros are stripped. -/
theorem strip_spec (s : Str) : ∃ k, s = strip s ++ List.replicate k '0' := by
  refine ⟨(s.reverse.takeWhile (· == '0')).length, ?_⟩
  have h : s.reverse.takeWhile (· == '0') = List.replicate (s.reverse.takeWhile (· == '0')).length '0' := by
    apply List.eq_replicate_of_mem
    intro c hc
    have := List.all_takeWhile (l := s.reverse) (p := (· == '0'))
    rw [List.all_eq_true] at this
    simpa using this c hc
  have e := List.takeWhile_append_dropWhile (p := (· == '0')) (l := s.reverse)
  have e2 := congrArg List.reverse e
  rw [List.reverse_append, List.reverse_reverse] at e2
  rw [strip]
  conv_lhs => rw [← e2]
  congr 1
  rw [h, List.reverse_replicate]
  simp

theorem strip_sub {s : Str} {c : Char} (h : c ∈ strip s) : c ∈ s := by
  obtain ⟨k, e⟩ := strip_spec s
  rw [e]
  exact List.mem_append_left _ h

theorem digit_ne {c : Char} (h : ∃ d, d < 10 ∧ c = digitChar d) : c ≠ '.' ∧ c ≠ 'e' ∧ c ≠ 'E' ∧ c ≠ '-' ∧ c ≠ '+' := by
  obtain ⟨d, hd, rfl⟩ := h
  have : ∀ d : Fin 10, digitChar d.val ≠ '.' ∧ digitChar d.val ≠ 'e' ∧ digitChar d.val ≠ 'E' ∧ digitChar d.val ≠ '-' ∧ digitChar d.val ≠ '+' := by decide
  exact this ⟨d, hd⟩

theorem parseNat_eq {s : Str} (h : s ≠ []) : parseNat s = digitsVal 0 s := by
  cases s with
  | nil => exact absurd rfl h
  | cons c s => rfl

theorem takeWhile_stop {p : Char → Bool} {a : Str} {c : Char} {r : Str} (ha : ∀ x ∈ a, p x = true) (hc : p c = false) :
    (a ++ c :: r).takeWhile p = a ∧ (a ++ c :: r).dropWhile p = c :: r := by
  induction a with
  | nil => simp [hc]
  | cons x a ih =>
    have h1 := ha x (by simp)
    have h2 := ih fun x hx => ha x (List.mem_cons_of_mem _ hx)
    simp [h1, h2.1, h2.2]

theorem takeWhile_all {p : Char → Bool} {a : Str} (ha : ∀ x ∈ a, p x = true) : a.takeWhile p = a ∧ a.dropWhile p = [] := by
  induction a with
  | nil => simp
  | cons x a ih =>
    have h1 := ha x (by simp)
    have h2 := ih fun x hx => ha x (List.mem_cons_of_mem _ hx)
    simp [h1, h2.1, h2.2]

/-- Reading of digits with a point. -/
theorem readMantissa_eq {a b : Str} {m : ℕ} (ha : a ≠ []) (hda : AllDigits a) (hdb : AllDigits b) (h : digitsVal 0 (a ++ b) = some m) :
    readMantissa (a ++ fraction b) = some ((m : ℚ) / (10 : ℚ) ^ b.length) := by
  have pa : ∀ x ∈ a, (x != '.') = true := fun x hx => by simpa using (digit_ne (hda x hx)).1
  obtain ⟨k, e⟩ := strip_spec b
  have hne : a ++ strip b ≠ [] := by simp [ha]
  obtain ⟨v, hv⟩ := AllDigits.val (AllDigits.append hda (AllDigits.sub hdb fun c => strip_sub)) 0
  have hm : m = v * 10 ^ k := by
    rw [e, ← List.append_assoc, digitsVal_append, hv, Option.bind_some, digitsVal_zeros, Option.some.injEq] at h
    exact h.symm
  have hl : b.length = (strip b).length + k := by
    conv_lhs => rw [e]
    simp
  have goal : (v : ℚ) / (10 : ℚ) ^ (strip b).length = (m : ℚ) / (10 : ℚ) ^ b.length := by
    rw [hm, hl, pow_add]
    push_cast
    field_simp
  unfold fraction
  split
  · next hs =>
    rw [List.append_nil, readMantissa, (takeWhile_all pa).1, (takeWhile_all pa).2]
    rw [hs, List.append_nil] at hv
    rw [hs] at goal
    simp only [List.drop_nil, List.append_nil, parseNat_eq ha, hv, Option.map_some]
    exact congrArg some goal
  · have t := takeWhile_stop (p := (· != '.')) (r := strip b) pa (by rfl : ('.' != '.') = false)
    rw [readMantissa, t.1, t.2]
    simp only [List.drop_succ_cons, List.drop_zero, parseNat_eq hne, hv, Option.map_some]
    exact congrArg some goal

/-! ## Reading of what is written -/

theorem fraction_mem {s : Str} (h : AllDigits s) {c : Char} (hc : c ∈ fraction s) : c = '.' ∨ ∃ d, d < 10 ∧ c = digitChar d := by
  unfold fraction at hc
  split at hc
  · simp at hc
  · rcases List.mem_cons.1 hc with hc | hc
    · exact Or.inl hc
    · exact Or.inr (h c (strip_sub hc))

theorem readExponent_exponent (x : ℤ) : ∃ r, exponent x = 'e' :: r ∧ readExponent r = some x := by
  refine ⟨_, rfl, ?_⟩
  have hz : ∀ n : ℕ, parseNat (cs!"0" ++ showNat n) = some n := by
    intro n
    have h := (showNat_spec n).2.2
    have : digitVal '0' = some 0 := by decide
    simp only [List.cons_append, List.nil_append, parseNat, digitsVal, this]
    exact h
  have hp : parseNat ((if x.natAbs < 10 then cs!"0" else []) ++ showNat x.natAbs) = some x.natAbs := by
    split
    · exact hz _
    · exact parseNat_showNat _
  by_cases hx : x < 0
  · have e : -((x.natAbs : ℕ) : ℤ) = x := by omega
    simp only [hx, if_true, readExponent, hp, Option.map_some, e]
  · simp only [hx, if_false]
    rw [readExponent]
    · have e : ((x.natAbs : ℕ) : ℤ) = x := by omega
      simp only [dropPlus, if_true, hp, Option.map_some, e]
    · intro r h
      simp only [List.cons.injEq] at h
      exact absurd h.1 (by decide)

/-- Reading of a number without exponent. -/
theorem readUnsigned_plain {a b : Str} {m : ℕ} (ha : a ≠ []) (hda : AllDigits a) (hdb : AllDigits b) (h : digitsVal 0 (a ++ b) = some m) :
    readUnsigned (a ++ fraction b) = some ((m : ℚ) / (10 : ℚ) ^ b.length) := by
  have pa : ∀ x ∈ a ++ fraction b, (fun c => c != 'e' && c != 'E') x = true := by
    intro x hx
    rcases List.mem_append.1 hx with hx | hx
    · have := digit_ne (hda x hx)
      simp [this]
    · rcases fraction_mem hdb hx with rfl | hx
      · rfl
      · have := digit_ne hx
        simp [this]
  have t := takeWhile_all pa
  rw [readUnsigned]
  simp only [t.1, t.2]
  exact readMantissa_eq ha hda hdb h

/-- Reading of a number with exponent. -/
theorem readUnsigned_exponent {a b : Str} {m : ℕ} (ha : a ≠ []) (hda : AllDigits a) (hdb : AllDigits b) (h : digitsVal 0 (a ++ b) = some m) (x : ℤ) :
    readUnsigned (a ++ fraction b ++ exponent x) = some ((m : ℚ) / (10 : ℚ) ^ b.length * (10 : ℚ) ^ x) := by
  have pa : ∀ x ∈ a ++ fraction b, (fun c => c != 'e' && c != 'E') x = true := by
    intro x hx
    rcases List.mem_append.1 hx with hx | hx
    · have := digit_ne (hda x hx)
      simp [this]
    · rcases fraction_mem hdb hx with rfl | hx
      · rfl
      · have := digit_ne hx
        simp [this]
  obtain ⟨r, hr, hx⟩ := readExponent_exponent x
  have t := takeWhile_stop (p := fun c => c != 'e' && c != 'E') (c := 'e') (r := r) pa (by rfl)
  rw [hr, readUnsigned]
  simp only [t.1, t.2, readMantissa_eq ha hda hdb h, hx, Option.bind_some, Option.map_some]

theorem ten_ne : (10 : ℚ) ≠ 0 := by norm_num

/-- The text of a number is read back. -/
theorem readUnsigned_layout {m : ℕ} (h : m < 10 ^ 6) (x : ℤ) : readUnsigned (layout m x) = some ((m : ℚ) * (10 : ℚ) ^ (x - 5)) := by
  have hd := digits_all 6 m
  have hl := digits_length 6 m
  have hv : digitsVal 0 (digits 6 m) = some m := by rw [digits_val 6 m 0 h]; simp
  unfold layout
  split
  · rw [readUnsigned_exponent (m := m)]
    · rw [List.length_drop, hl, div_mul_eq_mul_div, mul_div_assoc, zpow_sub₀ ten_ne]
      norm_num
    · intro e
      have := congrArg List.length e
      rw [List.length_take, hl] at this
      simp at this
    · exact AllDigits.sub hd fun c => List.mem_of_mem_take
    · exact AllDigits.sub hd fun c => List.mem_of_mem_drop
    · rw [List.take_append_drop]
      exact hv
  · next h1 =>
    split
    · next h2 =>
      rw [readUnsigned_plain (m := m) (by simp) _ (AllDigits.append (zeros_all _) hd)]
      · rw [List.length_append, List.length_replicate, hl, div_eq_mul_inv, ← zpow_natCast, ← zpow_neg]
        congr 3
        push_cast
        omega
      · have : digitVal '0' = some 0 := by decide
        simp only [List.cons_append, List.nil_append, digitsVal, this]
        rw [digitsVal_append, digitsVal_zeros, Option.bind_some]
        simpa using hv
      · intro c hc
        rw [List.mem_singleton] at hc
        subst hc
        exact ⟨0, by decide, by decide⟩
    · next h2 =>
      rw [readUnsigned_plain (m := m)]
      · rw [List.length_drop, hl, div_eq_mul_inv, ← zpow_natCast, ← zpow_neg]
        congr 3
        omega
      · intro e
        have := congrArg List.length e
        rw [List.length_take, hl] at this
        simp at this
        omega
      · exact AllDigits.sub hd fun c => List.mem_of_mem_take
      · exact AllDigits.sub hd fun c => List.mem_of_mem_drop
      · rw [List.take_append_drop]
        exact hv

/-- The text of a number begins with a digit. -/
theorem layout_cons (m : ℕ) (x : ℤ) : ∃ d r, d < 10 ∧ layout m x = digitChar d :: r := by
  have hd := digits_all 6 m
  have hl := digits_length 6 m
  have key : ∀ k, 1 ≤ k → ∃ d r, d < 10 ∧ (digits 6 m).take k = digitChar d :: r := by
    intro k hk
    cases e : (digits 6 m).take k with
    | nil =>
      have := congrArg List.length e
      rw [List.length_take, hl] at this
      simp at this
      omega
    | cons c r =>
      obtain ⟨d, h1, h2⟩ := hd c (List.mem_of_mem_take (by rw [e]; simp))
      exact ⟨d, r, h1, by rw [h2]⟩
  unfold layout
  split
  · obtain ⟨d, r, h1, h2⟩ := key 1 (le_refl _)
    exact ⟨d, _, h1, by rw [h2]; rfl⟩
  · split
    · exact ⟨0, _, by decide, rfl⟩
    · obtain ⟨d, r, h1, h2⟩ := key (x + 1).toNat (by omega)
      exact ⟨d, _, h1, by rw [h2]; rfl⟩

/-- The characters of a number. -/
def NumChar (c : Char) : Prop := (∃ d, d < 10 ∧ c = digitChar d) ∨ c = '.' ∨ c = 'e' ∨ c = '-' ∨ c = '+'

theorem layout_chars (m : ℕ) (x : ℤ) : ∀ c ∈ layout m x, NumChar c := by
  have hd := digits_all 6 m
  have hf : ∀ {s : Str}, AllDigits s → ∀ c ∈ fraction s, NumChar c := by
    intro s hs c hc
    rcases fraction_mem hs hc with h | h
    · exact Or.inr (Or.inl h)
    · exact Or.inl h
  have he : ∀ c ∈ exponent x, NumChar c := by
    intro c hc
    unfold exponent at hc
    rcases List.mem_cons.1 hc with hc | hc
    · exact Or.inr (Or.inr (Or.inl hc))
    · rcases List.mem_cons.1 hc with hc | hc
      · split at hc
        · exact Or.inr (Or.inr (Or.inr (Or.inl hc)))
        · exact Or.inr (Or.inr (Or.inr (Or.inr hc)))
      · rcases List.mem_append.1 hc with hc | hc
        · split at hc
          · rw [List.mem_singleton] at hc
            exact Or.inl ⟨0, by decide, hc⟩
          · simp at hc
        · exact Or.inl ((showNat_spec _).2.1 c hc)
  intro c hc
  unfold layout at hc
  split at hc
  · rcases List.mem_append.1 hc with hc | hc
    · rcases List.mem_append.1 hc with hc | hc
      · exact Or.inl (hd c (List.mem_of_mem_take hc))
      · exact hf (AllDigits.sub hd fun c => List.mem_of_mem_drop) c hc
    · exact he c hc
  · split at hc
    · rcases List.mem_append.1 hc with hc | hc
      · rw [List.mem_singleton] at hc
        exact Or.inl ⟨0, by decide, hc⟩
      · exact hf (AllDigits.append (zeros_all _) hd) c hc
    · rcases List.mem_append.1 hc with hc | hc
      · exact Or.inl (hd c (List.mem_of_mem_take hc))
      · exact hf (AllDigits.sub hd fun c => List.mem_of_mem_drop) c hc

/-- The text of a positive number with six digits. -/
theorem textPos_eq {m : ℕ} {e : ℤ} (h1 : 10 ^ 5 ≤ m) (h2 : m < 10 ^ 6) : textPos (m * (10 : ℚ) ^ e) = layout m (e + 5) := by
  have hw : (0 : ℚ) < (10 : ℚ) ^ e := zpow_pos (by norm_num) e
  have a : (10 : ℚ) ^ 5 ≤ (m : ℚ) := by exact_mod_cast h1
  have c : (m : ℚ) < (10 : ℚ) ^ 6 := by exact_mod_cast h2
  have hl : Int.log 10 ((m : ℚ) * (10 : ℚ) ^ e) = e + 5 := by
    apply log_eq (by decide)
    · push_cast
      rw [zpow_add₀ ten_ne, mul_comm]
      exact mul_le_mul_of_nonneg_right (by exact_mod_cast h1) hw.le
    · push_cast
      rw [show e + 5 + 1 = e + 6 by ring, zpow_add₀ ten_ne, mul_comm]
      exact mul_lt_mul_of_pos_left (by exact_mod_cast h2) hw
  rw [textPos, hl, show e + 5 - 5 = e by ring, mul_div_assoc, div_self hw.ne', mul_one, Int.floor_natCast]
  rfl

/-- The text of a number with six digits is read back. -/
theorem readDecimal_text {q : ℚ} (h : IsSig 10 6 q) : readDecimal (text q) = some q := by
  rcases h with h | ⟨m, e, h1, h2, h3⟩
  · subst h
    decide +kernel
  · obtain ⟨d, r, hd, hc⟩ := layout_cons m (e + 5)
    have hp : 0 < |q| := by
      rw [h3]
      exact mul_pos (by exact_mod_cast (by omega : 0 < m)) (zpow_pos (by norm_num) e)
    have hr := readUnsigned_layout h2 (e + 5)
    rw [show e + 5 - 5 = e by ring] at hr
    push_cast at h3
    unfold text
    rw [if_neg (abs_pos.1 hp)]
    split
    · next hn =>
      rw [abs_of_neg hn] at h3
      rw [h3, textPos_eq h1 h2]
      simp only [readDecimal, hr, Option.map_some, ← h3, neg_neg]
    · next hn =>
      rw [abs_of_nonneg (not_lt.1 hn)] at h3
      rw [h3, textPos_eq h1 h2]
      have f := digitChar_facts hd
      rw [hc] at hr ⊢
      rw [readDecimal]
      · rw [dropPlus, if_neg f.2.2.1, hr]
      · intro r' h'
        simp only [List.cons.injEq] at h'
        exact f.2.2.2 h'.1

theorem text_chars (q : ℚ) : ∀ c ∈ text q, NumChar c := by
  intro c hc
  unfold text at hc
  split at hc
  · rw [List.mem_singleton] at hc
    exact Or.inl ⟨0, by decide, hc⟩
  · split at hc
    · rcases List.mem_cons.1 hc with hc | hc
      · exact Or.inr (Or.inr (Or.inr (Or.inl hc)))
      · exact layout_chars _ _ c hc
    · exact layout_chars _ _ c hc

/-- The text of a number begins with a digit or a minus sign. -/
theorem text_cons (q : ℚ) : ∃ c r, text q = c :: r ∧ (c = '-' ∨ ∃ d, d < 10 ∧ c = digitChar d) := by
  unfold text
  split
  · exact ⟨_, _, rfl, Or.inr ⟨0, by decide, by decide⟩⟩
  · split
    · exact ⟨_, _, rfl, Or.inl rfl⟩
    · obtain ⟨d, r, h1, h2⟩ := layout_cons ⌊q / (10 : ℚ) ^ (Int.log 10 q - 5)⌋.toNat (Int.log 10 q)
      exact ⟨_, _, h2, Or.inr ⟨d, h1, rfl⟩⟩

/-! ## Numbers with six digits after the point -/

theorem nearest_nonneg {q : ℚ} (h : 0 ≤ q) : 0 ≤ nearest q := by
  have h1 := abs_le.1 (nearest_close q)
  have : (-1 : ℚ) < nearest q := by linarith
  have : (-1 : ℤ) < nearest q := by exact_mod_cast this
  omega

theorem readUnsigned_point {a : Str} (n : ℕ) (ha : a ≠ []) (hd : AllDigits a) {v : ℕ} (hv : digitsVal 0 a = some v) (hn : n < 10 ^ 6) :
    readUnsigned (a ++ '.' :: digits 6 n) = some (((v * 10 ^ 6 + n : ℕ) : ℚ) / 10 ^ 6) := by
  have hb := digits_all 6 n
  have pa : ∀ x ∈ a ++ '.' :: digits 6 n, (fun c => c != 'e' && c != 'E') x = true := by
    intro x hx
    rcases List.mem_append.1 hx with hx | hx
    · have := digit_ne (hd x hx)
      simp [this]
    · rcases List.mem_cons.1 hx with rfl | hx
      · rfl
      · have := digit_ne (hb x hx)
        simp [this]
  have t := takeWhile_all pa
  have t' := takeWhile_stop (p := (· != '.')) (c := '.') (r := digits 6 n) (a := a) (fun x hx => by simpa using (digit_ne (hd x hx)).1) rfl
  rw [readUnsigned]
  simp only [t.1, t.2]
  rw [readMantissa, t'.1, t'.2]
  simp only [List.drop_succ_cons, List.drop_zero, digits_length]
  rw [parseNat_eq (by simp [ha]), digitsVal_append, hv, Option.bind_some, digits_val 6 n v hn, Option.map_some]

/-- What is read is the nearest number with six digits after the point. -/
theorem readDecimal_fixed (q : ℚ) : ∃ r, readDecimal (fixed q) = some r ∧ |r - q| ≤ 1 / 2000000 ∧ (|q| < 1 / 2000000 → r = 0) := by
  have h0 := nearest_nonneg (q := |q| * 10 ^ 6) (mul_nonneg (abs_nonneg q) (by norm_num))
  have hc := nearest_close (|q| * 10 ^ 6)
  obtain ⟨n, hn⟩ := Int.eq_ofNat_of_zero_le h0
  obtain ⟨d, r, hd, hs⟩ := showNat_cons (n / 10 ^ 6)
  have hsp := showNat_spec (n / 10 ^ 6)
  have hu := readUnsigned_point (n % 10 ^ 6) hsp.1 hsp.2.1 hsp.2.2 (Nat.mod_lt _ (by norm_num))
  rw [Nat.div_add_mod'] at hu
  rw [hn, Int.cast_natCast] at hc
  have hz : |q| < 1 / 2000000 → n = 0 := by
    intro hq
    have h1 := (abs_le.1 hc).2
    have : (n : ℚ) < 1 := by linarith
    have : n < 1 := by exact_mod_cast this
    omega
  have hc' : |(n : ℚ) / 10 ^ 6 - (|q|)| ≤ 1 / 2000000 := by
    have e : (n : ℚ) / 10 ^ 6 - |q| = ((n : ℚ) - |q| * 10 ^ 6) * (1 / 10 ^ 6) := by ring
    rw [e, abs_mul, abs_of_pos (by norm_num : (0 : ℚ) < 1 / 10 ^ 6)]
    linarith
  unfold fixed
  rw [hn, Int.toNat_natCast]
  by_cases hq : q < 0
  · refine ⟨-((n : ℚ) / 10 ^ 6), ?_, ?_, ?_⟩
    · rw [if_pos hq]
      simp only [List.cons_append, List.nil_append, readDecimal]
      rw [hu]
      rfl
    · rw [abs_of_neg hq] at hc'
      rw [← abs_neg]
      refine le_trans (le_of_eq ?_) hc'
      congr 1
      ring
    · intro h
      rw [hz h]
      simp
  · refine ⟨(n : ℚ) / 10 ^ 6, ?_, ?_, ?_⟩
    · rw [if_neg hq, List.nil_append]
      have f := digitChar_facts hd
      rw [hs] at hu ⊢
      rw [List.cons_append] at hu ⊢
      rw [readDecimal]
      · rw [dropPlus, if_neg f.2.2.1, hu]
      · intro r' h'
        simp only [List.cons.injEq] at h'
        exact f.2.2.2 h'.1
    · rwa [abs_of_nonneg (not_lt.1 hq)] at hc'
    · intro h
      rw [hz h]
      simp

theorem fixed_tok (q : ℚ) : IsTok (fixed q) := by
  have key : ∀ {s : Str}, AllDigits s → ∀ c ∈ s, isWs c = false := by
    intro s h c hc
    obtain ⟨d, hd, rfl⟩ := h c hc
    exact (digitChar_facts hd).1
  unfold fixed
  refine ⟨by simp, fun c hc => ?_⟩
  rcases List.mem_append.1 hc with hc | hc
  · rcases List.mem_append.1 hc with hc | hc
    · split at hc
      · rw [List.mem_singleton] at hc
        subst hc
        rfl
      · simp at hc
    · exact key (showNat_spec _).2.1 c hc
  · rcases List.mem_cons.1 hc with rfl | hc
    · rfl
    · exact key (digits_all 6 _) c hc

end Verif.Decimal
