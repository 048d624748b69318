import Verif.Lemmas.Sides
import Mathlib.Data.List.Nodup

/-!
# Sides of the surfaces written for the universe and the regions

Properties C35 and C36.
-/

namespace Verif.Props.Sides

open Verif Verif.Sides

/-- The surface `a` runs along the line `l`, in its direction when `v` is true. -/
def RunsAlong (l : List (Nat × Bool)) (a : Nat) (v : Bool) : Prop := find l a = some v

/-- Two surfaces have a line in common. -/
def Share (lines : List (List (Nat × Bool))) (a b : Nat) : Prop :=
  a ≠ b ∧ ∃ l ∈ lines, ∃ va vb, RunsAlong l a va ∧ RunsAlong l b vb

/-- An orientation of the surfaces: two surfaces that have a line in common are oriented alike exactly when they run along it in opposite
directions. -/
def Consistent (lines : List (List (Nat × Bool))) (bs : List Nat) (σ : Nat → Bool) : Prop :=
  ∀ l ∈ lines, ∀ a ∈ bs, ∀ b ∈ bs, a ≠ b → ∀ va vb, RunsAlong l a va → RunsAlong l b vb → (σ a = σ b ↔ va ≠ vb)

/-- Surfaces of `bs` joined to `first` through lines in common. -/
inductive Joined (lines : List (List (Nat × Bool))) (bs : List Nat) (first : Nat) : Nat → Prop
  | first : Joined lines bs first first
  | next {d s : Nat} : Joined lines bs first d → s ∈ bs → Share lines d s → Joined lines bs first s

/-! ### From indices to surfaces -/

/-- The look-up by index of the signs. -/
def pairAt (lines : List (List (Nat × Bool))) (bs : List Nat) (i j : Nat) : Option Bool :=
  match bs[i]?, bs[j]? with
  | some a, some b => pairOf (pairedSigns lines) a b
  | _, _ => none

theorem findSome_said {lines : List (List (Nat × Bool))} {a b : Nat} :
    lines.findSome? (fun l => said l a b) ≠ none ↔ ∃ l ∈ lines, ∃ va vb, RunsAlong l a va ∧ RunsAlong l b vb := by
  rw [← Option.isSome_iff_ne_none, List.findSome?_isSome_iff]
  constructor
  · rintro ⟨l, hl, h⟩
    refine ⟨l, hl, ?_⟩
    unfold said at h
    unfold RunsAlong
    cases ha : find l a <;> cases hb : find l b <;> rw [ha, hb] at h <;> simp at h
    exact ⟨_, _, rfl, rfl⟩
  · rintro ⟨l, hl, va, vb, ha, hb⟩
    refine ⟨l, hl, ?_⟩
    unfold RunsAlong at ha hb
    simp [said, ha, hb]

theorem pair_ne_none {lines : List (List (Nat × Bool))} {a b : Nat} : pairOf (pairedSigns lines) a b ≠ none ↔ Share lines a b := by
  rw [pairOf_eq]
  unfold Share
  by_cases h : a = b
  · simp [h]
  · rw [if_neg h, findSome_said]; simp [h]

theorem pair_some {lines : List (List (Nat × Bool))} {a b : Nat} {v : Bool} (h : pairOf (pairedSigns lines) a b = some v) :
    a ≠ b ∧ ∃ l ∈ lines, ∃ va vb, RunsAlong l a va ∧ RunsAlong l b vb ∧ v = (va != vb) := by
  rw [pairOf_eq] at h
  by_cases hab : a = b
  · simp [hab] at h
  · rw [if_neg hab] at h
    refine ⟨hab, ?_⟩
    obtain ⟨l, hl, h⟩ := List.exists_of_findSome?_eq_some h
    refine ⟨l, hl, ?_⟩
    unfold said at h
    unfold RunsAlong
    cases ha : find l a <;> cases hb : find l b <;> rw [ha, hb] at h <;> simp at h
    exact ⟨_, _, rfl, rfl, h.symm⟩

theorem relativeSigns_two (a b : Nat) (r : List Nat) (lines : List (List (Nat × Bool))) :
    relativeSigns (a :: b :: r) (pairedSigns lines) = (do
      let signs ← signLoop (pairAt lines (a :: b :: r)) (a :: b :: r).length ((a :: b :: r).length + 1)
        ((List.replicate (a :: b :: r).length none).set 0 (some true), [0])
      Res.check (signs.all Option.isSome)
      pure (signs.map fun s => s.getD true)) := rfl

/-- What `determine_relative_signs` does with two surfaces or more. -/
theorem relativeSigns_spec (a b : Nat) (r : List Nat) (lines : List (List (Nat × Bool))) :
    ∃ signs, Inv (pairAt lines (a :: b :: r)) (a :: b :: r).length (signs, []) ∧
      relativeSigns (a :: b :: r) (pairedSigns lines) =
        if signs.all Option.isSome then .ok (signs.map fun s => s.getD true) else .throw := by
  have hn : 0 < (a :: b :: r).length := by simp
  obtain ⟨h1, h2⟩ := inv_start (pairAt lines (a :: b :: r)) hn
  obtain ⟨signs, h3, h4⟩ := signLoop_spec ((a :: b :: r).length + 1) _ h1 (by
    simp only [List.length_singleton]; omega)
  refine ⟨signs, h4, ?_⟩
  rw [relativeSigns_two, h3, Res.ok_bind]
  cases signs.all Option.isSome <;> rfl

theorem all_isSome {signs : List (Option Bool)} :
    signs.all Option.isSome = true ↔ ∀ i, i < signs.length → ∃ w, signs[i]? = some (some w) := by
  rw [List.all_eq_true]
  constructor
  · intro h i hi
    obtain ⟨w, hw⟩ := Option.isSome_iff_exists.1 (h _ (List.getElem_mem hi))
    exact ⟨w, by rw [List.getElem?_eq_getElem hi, hw]⟩
  · intro h x hx
    obtain ⟨i, hi, rfl⟩ := List.getElem_of_mem hx
    obtain ⟨w, hw⟩ := h i hi
    rw [List.getElem?_eq_getElem hi] at hw
    rw [Option.some.inj hw]; rfl

/-! ### C35 -/

/-- Full statement of C35 for the agreement of the signs: whenever signs are given, two surfaces that have a line in common get the same
sign exactly when they run along it in opposite directions.  It is refuted by `pinched` and holds when the surfaces can be oriented
(`signs_agree_partial`). -/
def SignsAgree (lines : List (List (Nat × Bool))) (bs : List Nat) (signs : List Bool) : Prop :=
  ∀ l ∈ lines, ∀ (i j a b : Nat) (va vb : Bool), bs[i]? = some a → bs[j]? = some b → a ≠ b → RunsAlong l a va → RunsAlong l b vb →
    (signs[i]? = signs[j]? ↔ va ≠ vb)

/-- The signs are those of an orientation of the surfaces in which the first one is positive, when there is an orientation. -/
theorem signs_oriented {lines : List (List (Nat × Bool))} {first : Nat} {r : List Nat} {σ : Nat → Bool} {signs : List Bool}
    (hσ : Consistent lines (first :: r) σ) (h : relativeSigns (first :: r) (pairedSigns lines) = .ok signs) :
    signs.length = (first :: r).length ∧
      ∀ (i a : Nat), (first :: r)[i]? = some a → signs[i]? = some (decide (σ a = σ first)) := by
  cases r with
  | nil =>
    obtain rfl : [true] = signs := by simpa [relativeSigns] using h
    refine ⟨rfl, fun i a hi => ?_⟩
    cases i with
    | zero => simp at hi; subst hi; simp
    | succ i => simp at hi
  | cons b r =>
    obtain ⟨ss, hI, he⟩ := relativeSigns_spec first b r lines
    rw [he] at h
    split at h
    · next hall =>
      obtain rfl := Res.ok.inj h
      have hlen : ss.length = (first :: b :: r).length := hI.length
      refine ⟨by rw [List.length_map, hlen], fun i a hi => ?_⟩
      have hil : i < ss.length := by
        rw [hlen]; exact (List.getElem?_eq_some_iff.1 hi).1
      obtain ⟨w, hw⟩ := all_isSome.1 hall i hil
      rw [List.getElem?_map, hw]
      have hs := hI.sound (fun k => σ ((first :: b :: r).getD k 0)) (by
        intro p q v hp hq hpq
        unfold pairAt at hpq
        rw [List.getElem?_eq_getElem hp, List.getElem?_eq_getElem hq] at hpq
        obtain ⟨hne, l, hl, va, vb, h1, h2, rfl⟩ := pair_some hpq
        have := hσ l hl _ (List.getElem_mem hp) _ (List.getElem_mem hq) hne va vb h1 h2
        have g : ∀ (k : Nat) (hk : k < (first :: b :: r).length), (first :: b :: r).getD k 0 = (first :: b :: r)[k] := by
          intro k hk; rw [List.getD_eq_getElem?_getD, List.getElem?_eq_getElem hk]; rfl
        rw [g p hp, g q hq, this]
        simp) i w hw
      have e1 : (first :: b :: r).getD i 0 = a := by simp [List.getD_eq_getElem?_getD, hi]
      rw [e1] at hs
      have e2 : (first :: b :: r).getD 0 0 = first := rfl
      rw [e2] at hs
      simp only [Option.map_some, Option.getD_some, Option.some.injEq]
      cases w <;> simp at hs ⊢ <;> exact hs
    · exact absurd h (by simp)

/-- **C35** (agreement): when the surfaces can be oriented, the signs agree on every pair of surfaces that have a line in common. -/
theorem signs_agree_partial {lines : List (List (Nat × Bool))} {bs : List Nat} {σ : Nat → Bool} {signs : List Bool}
    (hσ : Consistent lines bs σ) (h : relativeSigns bs (pairedSigns lines) = .ok signs) : SignsAgree lines bs signs := by
  cases bs with
  | nil => simp [relativeSigns] at h
  | cons first r =>
    obtain ⟨_, hs⟩ := signs_oriented hσ h
    intro l hl i j a b va vb hi hj hab ha hb
    rw [hs i a hi, hs j b hj, ← hσ l hl a (List.mem_of_getElem? hi) b (List.mem_of_getElem? hj) hab va vb ha hb]
    simp only [Option.some.injEq, decide_eq_decide]
    cases σ a <;> cases σ b <;> cases σ first <;> simp

/-- **C35** (first surface): the first surface is positive and every surface has a sign, whatever the pairs. -/
theorem first_positive {lines : List (List (Nat × Bool))} {bs : List Nat} {signs : List Bool}
    (h : relativeSigns bs (pairedSigns lines) = .ok signs) : signs.length = bs.length ∧ signs[0]? = some true := by
  match bs with
  | [] => simp [relativeSigns] at h
  | [_] =>
    obtain rfl : [true] = signs := by simpa [relativeSigns] using h
    simp
  | a :: b :: r =>
    obtain ⟨ss, hI, he⟩ := relativeSigns_spec a b r lines
    rw [he] at h
    split at h
    · obtain rfl := Res.ok.inj h
      refine ⟨by rw [List.length_map]; exact hI.length, ?_⟩
      have := hI.start
      dsimp only at this
      rw [List.getElem?_map, this]; rfl
    · exact absurd h (by simp)

theorem reach_joined {lines : List (List (Nat × Bool))} {first : Nat} {r : List Nat} {i a : Nat}
    (h : Reach (pairAt lines (first :: r)) (first :: r).length i) (hi : (first :: r)[i]? = some a) :
    Joined lines (first :: r) first a := by
  induction h generalizing a with
  | first => simp at hi; subst hi; exact .first
  | @next d s _ hs hp ih =>
    unfold pairAt at hp
    rw [hi] at hp
    cases hd : (first :: r)[d]? with
    | none => rw [hd] at hp; simp at hp
    | some x =>
      rw [hd] at hp
      exact .next (ih hd) (List.mem_of_getElem? hi) (pair_ne_none.1 hp)

theorem joined_reach {lines : List (List (Nat × Bool))} {first : Nat} {r : List Nat} {a : Nat} (hn : (first :: r).Nodup)
    (h : Joined lines (first :: r) first a) :
    ∀ i, (first :: r)[i]? = some a → Reach (pairAt lines (first :: r)) (first :: r).length i := by
  have hu : ∀ {i j x : Nat}, (first :: r)[i]? = some x → (first :: r)[j]? = some x → i = j := by
    intro i j x h1 h2
    obtain ⟨hi, e1⟩ := List.getElem?_eq_some_iff.1 h1
    obtain ⟨hj, e2⟩ := List.getElem?_eq_some_iff.1 h2
    exact (List.Nodup.getElem_inj_iff hn).1 (e1.trans e2.symm)
  induction h with
  | first =>
    intro i hi
    have := hu hi (j := 0) (by simp)
    subst this
    exact .first
  | @next d s hd hs hsh ih =>
    intro i hi
    have hdm : d ∈ first :: r := by
      cases hd with
      | first => simp
      | next _ h _ => exact h
    obtain ⟨k, hk, e⟩ := List.getElem_of_mem hdm
    have hk' : (first :: r)[k]? = some d := by rw [List.getElem?_eq_getElem hk, e]
    refine .next (ih k hk') (List.getElem?_eq_some_iff.1 hi).1 ?_
    unfold pairAt
    rw [hk', hi]
    exact pair_ne_none.2 hsh

/-- **C35** (connection): signs are given exactly to the lists of surfaces that are joined to the first one through lines in common, and
the other lists raise an exception. -/
theorem signs_iff_joined (lines : List (List (Nat × Bool))) (first : Nat) (r : List Nat) (hn : (first :: r).Nodup) :
    ((∀ s ∈ first :: r, Joined lines (first :: r) first s) →
      ∃ signs, relativeSigns (first :: r) (pairedSigns lines) = .ok signs) ∧
    (¬ (∀ s ∈ first :: r, Joined lines (first :: r) first s) → relativeSigns (first :: r) (pairedSigns lines) = .throw) := by
  cases r with
  | nil =>
    refine ⟨fun _ => ⟨[true], rfl⟩, fun h => absurd ?_ h⟩
    intro s hs
    obtain rfl := List.mem_singleton.1 hs
    exact .first
  | cons b r =>
    obtain ⟨ss, hI, he⟩ := relativeSigns_spec first b r lines
    have hlen : ss.length = (first :: b :: r).length := hI.length
    have key : ss.all Option.isSome = true ↔ ∀ s ∈ first :: b :: r, Joined lines (first :: b :: r) first s := by
      rw [all_isSome]
      constructor
      · intro h s hs
        obtain ⟨i, hi, e⟩ := List.getElem_of_mem hs
        exact reach_joined ((final_reach hI i).2 (h i (by rw [hlen]; exact hi))) (by rw [List.getElem?_eq_getElem hi, e])
      · intro h i hi
        rw [hlen] at hi
        exact (final_reach hI i).1 (joined_reach hn (h _ (List.getElem_mem hi)) i (by rw [List.getElem?_eq_getElem hi]))
    rw [he]
    constructor
    · intro h
      rw [if_pos (key.2 h)]
      exact ⟨_, rfl⟩
    · intro h
      rw [if_neg (fun hh => h (key.1 hh))]

/-- Disagreement with C35: two closed shells that touch along a line (surfaces 0 and 1 for one, 2 and 3 for the other).  Surfaces 2 and 3
run along the line in opposite directions and get different signs, although each shell can be oriented with equal signs. -/
theorem pinched :
    relativeSigns [0, 1, 2, 3] (pairedSigns [[(0, true), (1, false), (2, true), (3, false)]]) = .ok [true, true, false, true] ∧
      ¬ SignsAgree [[(0, true), (1, false), (2, true), (3, false)]] [0, 1, 2, 3] [true, true, false, true] := by
  refine ⟨by decide +kernel, fun h => ?_⟩
  have := h _ List.mem_cons_self 2 3 2 3 true false rfl rfl (by decide) (by unfold RunsAlong; decide) (by unfold RunsAlong; decide)
  simp at this

/-- Without any surface the first sign is out of bounds. -/
theorem no_surface (paired : PairedSigns) : relativeSigns [] paired = .ub := rfl

/-- Four faces of a tetrahedron, the last one turned inside out. -/
def tetraLines : List (List (Nat × Bool)) :=
  [[(0, true), (1, false)], [(0, true), (2, false)], [(0, false), (3, false)], [(1, true), (2, false)], [(1, true), (3, true)],
   [(2, false), (3, false)]]

example : relativeSigns [0, 1, 2, 3] (pairedSigns tetraLines) = .ok [true, true, true, false] := by decide +kernel
example : relativeSigns [3, 1, 2, 0] (pairedSigns tetraLines) = .ok [true, false, false, false] := by decide +kernel
example : relativeSigns [0, 1, 7] (pairedSigns tetraLines) = .throw := by decide +kernel

/-! ### C36 -/

/-- Signed volume of an orientation of the surfaces seen from the surface `c`. -/
def orientedVolume (volume : Nat → Nat → Int) (bs : List Nat) (τ : Nat → Bool) (c : Nat) : Int :=
  (bs.map fun s => if τ s then volume c s else - volume c s).sum

/-- `τ` orients the surfaces outwards: it is consistent, and the volume is positive from wherever it is computed (for a closed boundary it
does not depend on the point). -/
structure Outward (lines : List (List (Nat × Bool))) (volume : Nat → Nat → Int) (bs : List Nat) (τ : Nat → Bool) : Prop where
  consistent : Consistent lines bs τ
  positive : ∀ c ∈ bs, 0 < orientedVolume volume bs τ c

theorem sum_zip_signs (volume : Nat → Nat → Int) (c : Nat) (bs : List Nat) (ρ : Nat → Bool) :
    ((bs.zip (bs.map ρ)).map fun e => if e.2 then volume c e.1 else - volume c e.1).sum = orientedVolume volume bs ρ c := by
  unfold orientedVolume
  rw [List.zip_map_right, List.zip_eq_zipWith]
  congr 1
  induction bs with
  | nil => rfl
  | cons a l ih => simpa using ih

theorem orientedVolume_not (volume : Nat → Nat → Int) (c : Nat) (bs : List Nat) (ρ : Nat → Bool) :
    orientedVolume volume bs (fun s => !ρ s) c = - orientedVolume volume bs ρ c := by
  unfold orientedVolume
  induction bs with
  | nil => rfl
  | cons a l ih =>
    simp only [List.map_cons, List.sum_cons, ih]
    by_cases h : ρ a = true
    · rw [if_pos h, if_neg (by simp [h])]; omega
    · rw [if_neg h, if_pos (by simpa using h)]; omega

/-- With an outward orientation, the signs and the test of the volume give it back, up to the same flip. -/
theorem signs_and_test {lines : List (List (Nat × Bool))} {volume : Nat → Nat → Int} {bs : List Nat} {τ : Nat → Bool}
    {signs : List Bool} (hτ : Outward lines volume bs τ) (h : relativeSigns bs (pairedSigns lines) = .ok signs) :
    ∃ correct, correctSides volume bs signs = .ok correct ∧ signs = bs.map (fun s => if correct then τ s else !τ s) := by
  cases bs with
  | nil => simp [relativeSigns] at h
  | cons first r =>
    obtain ⟨hl, hs⟩ := signs_oriented hτ.consistent h
    have hsigns : signs = (first :: r).map (fun s => decide (τ s = τ first)) := by
      apply List.ext_getElem?
      intro i
      rw [List.getElem?_map]
      cases hi : (first :: r)[i]? with
      | none =>
        rw [List.getElem?_eq_none_iff] at hi
        rw [List.getElem?_eq_none (by omega)]; rfl
      | some a => rw [hs i a hi]; rfl
    have hv := hτ.positive first List.mem_cons_self
    refine ⟨τ first, ?_, ?_⟩
    · unfold correctSides
      rw [Res.index_cons_zero, Res.ok_bind]
      dsimp only
      rw [hsigns, sum_zip_signs]
      cases ht : τ first with
      | true =>
        have e : orientedVolume volume (first :: r) (fun s => decide (τ s = true)) first = orientedVolume volume (first :: r) τ first := by
          congr 1; funext s; simp
        rw [e]
        have h1 : (orientedVolume volume (first :: r) τ first != 0) = true := by
          simp only [bne_iff_ne]; omega
        rw [h1, Res.check_true, Res.ok_bind, decide_eq_true hv]; rfl
      | false =>
        have e : orientedVolume volume (first :: r) (fun s => decide (τ s = false)) first = - orientedVolume volume (first :: r) τ first := by
          rw [← orientedVolume_not]
          congr 1; funext s; cases τ s <;> rfl
        rw [e]
        have h1 : (- orientedVolume volume (first :: r) τ first != 0) = true := by
          simp only [bne_iff_ne]; omega
        rw [h1, Res.check_true, Res.ok_bind, decide_eq_false (by omega)]; rfl
    · rw [hsigns]
      apply List.map_congr_left
      intro s _
      cases τ first <;> cases τ s <;> rfl

theorem find_map {K V : Type} [DecidableEq K] (f : Nat → V) (g : Nat → K) (hg : ∀ a b, g a = g b → a = b) (bs : List Nat) (s : Nat) :
    find (bs.map fun a => (g a, f a)) (g s) = if s ∈ bs then some (f s) else none := by
  induction bs with
  | nil => simp [find]
  | cons a l ih =>
    rw [List.map_cons]
    simp only [find]
    by_cases h : a = s
    · subst h; simp
    · rw [if_neg (fun hh => h (hg _ _ hh)), ih]
      have : s ≠ a := fun hh => h hh.symm
      simp [this]

theorem zip_map_eq {A B C : Type} (bs : List A) (f : A → B) (h : A × B → C) :
    (bs.zip (bs.map f)).map h = bs.map fun a => h (a, f a) := by
  induction bs with
  | nil => rfl
  | cons a l ih => simpa using ih

/-- **C36** (universe): the universe gets the inward sides. -/
theorem universe_inward {lines : List (List (Nat × Bool))} {volume : Nat → Nat → Int} {bs : List Nat} {τ : Nat → Bool}
    {sides : List (Nat × Bool)} (hτ : Outward lines volume bs τ)
    (h : universeSides volume bs (pairedSigns lines) = .ok sides) (s : Nat) :
    find sides s = if s ∈ bs then some (!τ s) else none := by
  unfold universeSides at h
  obtain ⟨signs, h1, h⟩ := Res.bind_eq_ok.1 h
  obtain ⟨correct, h2, hsigns⟩ := signs_and_test hτ h1
  rw [h2, Res.ok_bind] at h
  obtain rfl := Res.ok.inj h
  rw [find_foldl (fun e : Nat × Bool => (e.1, if correct then !e.2 else e.2))]
  rw [hsigns, zip_map_eq]
  have := find_map (fun a => !τ a) (fun a => a) (fun _ _ h => h) bs s
  simp only [find, Option.none_or]
  rw [← this]
  congr 1
  apply List.map_congr_left
  intro a _
  cases correct <;> simp

theorem block_outward {lines : List (List (Nat × Bool))} {volume : Nat → Nat → Int} {block : Nat × List Nat} {τ : Nat → Bool}
    {before sides : List ((Nat × Nat) × Bool)} (hτ : Outward lines volume block.2 τ)
    (h : blockSides volume before block (pairedSigns lines) = .ok sides) (s : Nat) :
    find sides (block.1, s) = (find before (block.1, s)).or (if s ∈ block.2 then some (τ s) else none) := by
  unfold blockSides at h
  obtain ⟨signs, h1, h⟩ := Res.bind_eq_ok.1 h
  obtain ⟨correct, h2, hsigns⟩ := signs_and_test hτ h1
  rw [h2, Res.ok_bind] at h
  obtain rfl := Res.ok.inj h
  rw [find_foldl (fun e : Nat × Bool => ((block.1, e.1), if correct then e.2 else !e.2))]
  congr 1
  rw [hsigns, zip_map_eq]
  have := find_map (fun a => τ a) (fun a => (block.1, a)) (fun _ _ h => (Prod.mk.inj h).2) block.2 s
  rw [← this]
  congr 1
  apply List.map_congr_left
  intro a _
  cases correct <;> simp

theorem block_other {lines : List (List (Nat × Bool))} {volume : Nat → Nat → Int} {block : Nat × List Nat}
    {before sides : List ((Nat × Nat) × Bool)} (h : blockSides volume before block (pairedSigns lines) = .ok sides) (k s : Nat)
    (hk : k ≠ block.1) : find sides (k, s) = find before (k, s) := by
  unfold blockSides at h
  obtain ⟨signs, h1, h⟩ := Res.bind_eq_ok.1 h
  obtain ⟨correct, h2, h⟩ := Res.bind_eq_ok.1 h
  obtain rfl := Res.ok.inj h
  rw [find_foldl (fun e : Nat × Bool => ((block.1, e.1), if correct then e.2 else !e.2))]
  rw [find_none (m := List.map _ _)]
  · simp
  · intro v hv
    obtain ⟨e, _, he⟩ := List.mem_map.1 hv
    exact hk (Prod.mk.inj (Prod.mk.inj he).1).1.symm

theorem regions_other {lines : List (List (Nat × Bool))} {volume : Nat → Nat → Int} (blocks : List (Nat × List Nat)) :
    ∀ {before sides : List ((Nat × Nat) × Bool)},
      Res.foldM' (fun sides block => blockSides volume sides block (pairedSigns lines)) before blocks = .ok sides →
      ∀ (k s : Nat), (∀ b ∈ blocks, b.1 ≠ k) → find sides (k, s) = find before (k, s) := by
  induction blocks with
  | nil =>
    intro before sides h k s _
    obtain rfl := Res.ok.inj h; rfl
  | cons b blocks ih =>
    intro before sides h k s hk
    rw [Res.foldM'_cons] at h
    obtain ⟨mid, h1, h2⟩ := Res.bind_eq_ok.1 h
    rw [ih h2 k s (fun b' hb' => hk b' (List.mem_cons_of_mem _ hb')), block_other h1 k s (Ne.symm (hk b List.mem_cons_self))]

/-- **C36** (blocks): every block gets the outward sides of its boundary. -/
theorem regions_outward {lines : List (List (Nat × Bool))} {volume : Nat → Nat → Int} {blocks : List (Nat × List Nat)}
    {sides : List ((Nat × Nat) × Bool)} (h : regionsSides volume blocks (pairedSigns lines) = .ok sides)
    (hn : (blocks.map Prod.fst).Nodup) {block : Nat × List Nat} (hb : block ∈ blocks) {τ : Nat → Bool}
    (hτ : Outward lines volume block.2 τ) (s : Nat) :
    find sides (block.1, s) = if s ∈ block.2 then some (τ s) else none := by
  obtain ⟨pre, post, rfl⟩ := List.append_of_mem hb
  unfold regionsSides at h
  rw [Res.foldM'_append] at h
  obtain ⟨m1, h1, h⟩ := Res.bind_eq_ok.1 h
  rw [Res.foldM'_cons] at h
  obtain ⟨m2, h2, h3⟩ := Res.bind_eq_ok.1 h
  rw [List.map_append, List.map_cons, List.nodup_append] at hn
  rw [regions_other post h3 _ _ (fun b hb' he => (List.nodup_cons.1 hn.2.1).1 (List.mem_map.2 ⟨b, hb', he⟩)), block_outward hτ h2,
    regions_other pre h1 _ _ (fun b hb' he => hn.2.2 _ (List.mem_map_of_mem (f := Prod.fst) hb') block.1 List.mem_cons_self he)]
  simp [find]

theorem sum_perm {l l' : List Int} (h : l.Perm l') : l.sum = l'.sum := by
  induction h with
  | nil => rfl
  | cons _ _ ih => simp [ih]
  | swap a b l => simp only [List.sum_cons]; omega
  | trans _ _ h1 h2 => exact h1.trans h2

theorem outward_perm {lines : List (List (Nat × Bool))} {volume : Nat → Nat → Int} {bs bs' : List Nat} {τ : Nat → Bool}
    (hp : bs.Perm bs') (h : Outward lines volume bs τ) : Outward lines volume bs' τ := by
  refine ⟨fun l hl a ha b hb => h.consistent l hl a (hp.mem_iff.2 ha) b (hp.mem_iff.2 hb), fun c hc => ?_⟩
  have := h.positive c (hp.mem_iff.2 hc)
  unfold orientedVolume at this ⊢
  rwa [← sum_perm (hp.map _)]

/-- Disagreement with C36: the boundary of `pinched`, listed in another order for the block.  Surface 0 gets the same side for both. -/
theorem pinched_not_opposite :
    surfaceSides (fun _ _ => 1) [[(0, true), (1, false), (2, true), (3, false)]] [[0, 1, 2, 3]] [(7, [2, 3, 0, 1])] =
      .ok ⟨[(0, false), (1, false), (2, true), (3, false)], [((7, 2), true), ((7, 3), true), ((7, 0), false), ((7, 1), true)]⟩ := by
  decide +kernel

/-- **C36**: when the surfaces of a block are exactly those of the model boundaries, in any order, the side written for the universe is
the opposite of the one written for the block.  The full statement is for every model; this one needs the boundary to be closed and
orientable (`Outward`), see `pinched_not_opposite`. -/
theorem universe_opposite_partial {lines : List (List (Nat × Bool))} {volume : Nat → Nat → Int} {boundaries : List (List Nat)}
    {blocks : List (Nat × List Nat)} {out : AllSides} (h : surfaceSides volume lines boundaries blocks = .ok out)
    (hn : (blocks.map Prod.fst).Nodup) {block : Nat × List Nat} (hb : block ∈ blocks) (hp : boundaries.flatten.Perm block.2)
    {τ : Nat → Bool} (hτ : Outward lines volume block.2 τ) {s : Nat} (hs : s ∈ block.2) :
    ∃ side, find out.regions (block.1, s) = some side ∧ find out.outside s = some (!side) := by
  unfold surfaceSides at h
  obtain ⟨_, _, h⟩ := Res.bind_eq_ok.1 h
  obtain ⟨u, hu, h⟩ := Res.bind_eq_ok.1 h
  obtain ⟨r, hr, h⟩ := Res.bind_eq_ok.1 h
  obtain rfl := Res.ok.inj h
  refine ⟨τ s, ?_, ?_⟩
  · dsimp only
    rw [regions_outward hr hn hb hτ, if_pos hs]
  · dsimp only
    rw [universe_inward (outward_perm hp.symm hτ) hu, if_pos (hp.mem_iff.2 hs)]

/-- **C36** (no model boundary): a model without boundary raises an exception. -/
theorem no_boundary (volume : Nat → Nat → Int) (lines : List (List (Nat × Bool))) (blocks : List (Nat × List Nat)) :
    surfaceSides volume lines [] blocks = .throw := rfl

/-- **C36** (flat boundary): a null volume raises an exception. -/
theorem null_volume {volume : Nat → Nat → Int} {first : Nat} {r : List Nat} {ρ : Nat → Bool}
    (h : orientedVolume volume (first :: r) ρ first = 0) : correctSides volume (first :: r) ((first :: r).map ρ) = .throw := by
  unfold correctSides
  rw [Res.index_cons_zero, Res.ok_bind]
  dsimp only
  rw [sum_zip_signs, h]; rfl

/-- The tetrahedron of `tetraLines`, the centres being inside. -/
def tetraVolume (_ s : Nat) : Int := if s = 3 then -1 else 1

example : surfaceSides tetraVolume tetraLines [[3, 1], [2, 0]] [(7, [0, 1, 2, 3])] =
    .ok ⟨[(3, true), (1, false), (2, false), (0, false)], [((7, 0), true), ((7, 1), true), ((7, 2), true), ((7, 3), false)]⟩ := by
  decide +kernel
example : Outward tetraLines tetraVolume [0, 1, 2, 3] (fun s => s != 3) := by
  refine ⟨?_, by decide⟩
  unfold Consistent RunsAlong
  decide +kernel

end Verif.Props.Sides
