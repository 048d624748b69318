import Verif.Props.MlLoads
import Mathlib.Data.List.Perm.Subperm
import Mathlib.Data.List.Nodup

/-!
# C38: which blocks of saved ML models keep their surfaces

The boundary and internal surfaces of every block of a saved model that loads.
-/

set_option linter.unusedSectionVars false

namespace Verif.Props.MlBlocks

open Verif Verif.Gocad Verif.GocadMesh Verif.Ml Res
open Verif.Props.MlOutcomes (Record Records Parts ml_loads_iff Bounds BlockOf blocksOf)
open Verif.Props.PropHeaders (mapM'_iff)
open Verif.Props.MlGroups
open Verif.Props.MlCollections
open Verif.Props.MlLoads

variable {D : Type} [Num D]

/-! ## The ranks of the surfaces -/

/-- The surfaces in the order they are written: those of the collections, each once, and those in none. -/
def writtenFrom (w : List Nat) : List Group → List Nat
  | [] => w
  | c :: cs => writtenFrom (w ++ fresh w c.2.2) cs

/-- See `writtenFrom`. -/
def written (m : Model D) : List Nat := writtenFrom [] (collections m) ++ (unclassified m).map Surface.id

/-- The numbers of the surfaces: one more than their ranks. -/
def Ranked (st : Faces) (w : List Nat) : Prop :=
  st.next = 1 + w.length ∧ ∀ i, Sides.find st.comps i = if i ∈ w then some (1 + w.idxOf i) else none

theorem ranked_face {st st' : Faces} {w : List Nat} (hr : Ranked st w) {kind name : Str} {s : Ml.Surface D} (h : writeFace st kind name s = .ok st') :
    Ranked st' (w ++ [s.id]) := by
  unfold writeFace at h
  obtain ⟨key, _, h⟩ := bind_eq_ok.1 h
  rw [pure_eq] at h
  rw [← Res.ok.inj h]
  obtain ⟨r1, r2⟩ := hr
  refine ⟨by dsimp only; rw [r1, List.length_append]; simp; omega, fun i => ?_⟩
  dsimp only
  rw [Sides.find_emplace, r2, r1]
  by_cases hi : i ∈ w
  · rw [if_pos hi, if_pos (List.mem_append_left _ hi), List.idxOf_append_of_mem hi]
    rfl
  · rw [if_neg hi, Option.none_or]
    by_cases he : s.id = i
    · rw [if_pos he, if_pos (by simp [he]), List.idxOf_append_of_notMem hi, he]
      simp
    · rw [if_neg he, if_neg]
      simp [hi, Ne.symm he]

theorem fresh_congr {is : List Nat} : ∀ {a b : List Nat}, (∀ i, i ∈ a ↔ i ∈ b) → fresh a is = fresh b is := by
  induction is with
  | nil => intro a b _; rfl
  | cons i is ih =>
    intro a b h
    rw [fresh, fresh]
    by_cases hi : i ∈ a
    · rw [if_pos hi, if_pos ((h i).1 hi), ih h]
    · rw [if_neg hi, if_neg (fun h' => hi ((h i).2 h')), ih (a := i :: a) (b := i :: b)]
      intro j
      rw [List.mem_cons, List.mem_cons, h]

theorem ranked_any {st : Faces} {w : List Nat} (hr : Ranked st w) (i : Nat) : st.comps.any (fun e => e.1 = i) = true ↔ i ∈ w := by
  have h := hr.2 i
  have key : ∀ l : List (Nat × Nat), l.any (fun e => e.1 = i) = true ↔ (Sides.find l i).isSome := by
    intro l
    induction l with
    | nil => simp [Sides.find]
    | cons e l ih =>
      obtain ⟨k, v⟩ := e
      rw [List.any_cons, Sides.find]
      by_cases hk : k = i
      · simp [hk]
      · rw [if_neg hk, ← ih]; simp [hk]
  rw [key, h]
  by_cases hi : i ∈ w <;> simp [hi]

theorem ranked_items {m : Model D} {kind name : Res Str} : ∀ (is : List Nat) {w : List Nat} {st st' : Faces}, Ranked st w →
    Res.foldM' (writeItem m kind name) st is = .ok st' → Ranked st' (w ++ fresh w is) := by
  intro is
  induction is with
  | nil => intro w st st' hr h; cases h; rw [fresh, List.append_nil]; exact hr
  | cons i is ih =>
    intro w st st' hr h
    rw [Res.foldM'_cons] at h
    obtain ⟨s1, h1, h⟩ := bind_eq_ok.1 h
    unfold writeItem at h1
    split at h1
    · rename_i hw
      cases h1
      rw [fresh, if_pos ((ranked_any hr i).1 hw)]
      exact ih hr h
    · rename_i hw
      have hi : i ∉ w := fun h' => hw ((ranked_any hr i).2 h')
      obtain ⟨k, _, h1⟩ := bind_eq_ok.1 h1
      obtain ⟨n, _, h1⟩ := bind_eq_ok.1 h1
      obtain ⟨s, e3, h1⟩ := bind_eq_ok.1 h1
      have := ranked_face hr h1
      rw [surfaceOf_id' e3] at this
      have := ih this h
      rw [fresh, if_neg hi]
      rw [fresh_congr (b := i :: w) (fun j => by simp [or_comm]), List.append_assoc] at this
      exact this

theorem ranked_groups {m : Model D} : ∀ (cs : List Group) {w : List Nat} {st st' : Faces}, Ranked st w →
    Res.foldM' (fun st (c : Group) => Res.foldM' (writeItem m c.1 c.2.1) st c.2.2) st cs = .ok st' → Ranked st' (writtenFrom w cs) := by
  intro cs
  induction cs with
  | nil => intro w st st' hr h; cases h; exact hr
  | cons c cs ih =>
    intro w st st' hr h
    rw [Res.foldM'_cons] at h
    obtain ⟨s1, h1, h⟩ := bind_eq_ok.1 h
    exact ih (ranked_items c.2.2 hr h1) h

theorem ranked_loose : ∀ (ss : List (Ml.Surface D)) {w : List Nat} {st st' : Faces}, Ranked st w →
    Res.foldM' (fun st (s : Ml.Surface D) => writeFace st cs!"boundary" (componentName s.name) s) st ss = .ok st' → Ranked st' (w ++ ss.map Surface.id) := by
  intro ss
  induction ss with
  | nil => intro w st st' hr h; cases h; simpa using hr
  | cons s ss ih =>
    intro w st st' hr h
    rw [Res.foldM'_cons] at h
    obtain ⟨s1, h1, h⟩ := bind_eq_ok.1 h
    have := ih (ranked_face hr h1) h
    rwa [List.append_assoc] at this

theorem ranked_tfaces {m : Model D} {st : Faces} (h : writeTfaces m = .ok st) : Ranked st (written m) := by
  unfold writeTfaces at h
  obtain ⟨s1, h1, h⟩ := bind_eq_ok.1 h
  exact ranked_loose _ (ranked_groups _ ⟨rfl, fun i => rfl⟩ h1) h

/-- The rank of a surface in the file. -/
def place (m : Model D) (i : Nat) : Nat := (written m).idxOf i

/-- Two surfaces of the file have different ranks. -/
theorem place_inj {m : Model D} {i j : Nat} (hi : i ∈ written m) (_ : j ∈ written m) (h : place m i = place m j) : i = j := List.idxOf_inj hi |>.1 h

/-! ## The blocks that are read -/

/-- What a block comes back as: its record lists its boundary surfaces once and its internal ones twice. -/
def BlockBack (m : Model D) (b : Block) (r : RBlock) : Prop :=
  r.name = readAs (componentName b.name) ∧ Bounds ((listedIn b).map (place m)) r.boundaries r.internals ∧ ∀ i ∈ listedIn b, i ∈ written m

/-- The blocks that are not named as the universe. -/
def inside (m : Model D) : List Block := m.blocks.filter fun b => readAs (componentName b.name) ≠ cs!"Universe"

theorem back_of {m : Model D} {st : Faces} (hr : Ranked st (written m)) {s : Nat} {bs : List Block} {rs : List Record} (h : List.Forall₂ (BlockRec st.comps s) bs rs) :
    ∀ {rbs : List RBlock}, List.Forall₂ BlockOf (blocksOf rs) rbs → List.Forall₂ (BlockBack m) (bs.filter fun b => readAs (componentName b.name) ≠ cs!"Universe") rbs := by
  induction h with
  | nil => intro rbs h; cases h; exact .nil
  | @cons b r bs rs h1 _ ih =>
    intro rbs h
    obtain ⟨ns, n1, n2, _, rfl⟩ := h1
    have known : ∀ i ∈ listedIn b, i ∈ written m := by
      intro i hi
      have := n2 i hi
      rw [hr.2 i] at this
      by_contra hn
      rw [if_neg hn] at this
      cases this
    have places : (listedIn b).map (placeOf st.comps) = (listedIn b).map (place m) := by
      apply List.map_congr_left
      intro i hi
      rw [placeOf, hr.2 i, if_pos (known i hi), place]
      simp
    by_cases hu : readAs (componentName b.name) = cs!"Universe"
    · rw [if_pos hu] at h
      rw [List.filter_cons_of_neg (by simp [hu])]
      exact ih h
    · rw [if_neg hu] at h
      rw [List.filter_cons_of_pos (by simp [hu])]
      have e : blocksOf (.block (readAs (componentName b.name)) ns :: rs) = (readAs (componentName b.name), ns) :: blocksOf rs := rfl
      rw [e] at h
      cases h with
      | cons h1 h2 =>
        refine .cons ⟨h1.1, ?_, known⟩ (ih h2)
        have := h1.2
        dsimp only at this
        rwa [n1, places] at this

/-- **Blocks of saved models**: every block not named as the universe comes back, in order, with the surfaces that its record lists. -/
theorem blocks_back [LawfulNum D] (hp : PlainNumbers D) {m : Model D} (g : Sane m) {sides : Sides.AllSides} {f : File} (hf : saveMl m sides = .ok f) {L : Loaded D}
    (hL : loadMl f = .ok L) : List.Forall₂ (BlockBack m) (inside m) L.blocks := by
  obtain ⟨t⟩ := text_of hf
  obtain ⟨P, hP⟩ := (ml_loads_iff f L).1 hL
  have hw := words_needed hp t P
  obtain ⟨R, r1, _, _, _, rs, b1, b2⟩ := records_written hp t hw g.size
  obtain ⟨e, _⟩ := records_unique (parts_records t P) r1
  have := hP.blocks
  rw [e, b2] at this
  exact back_of (ranked_tfaces t.tfaces) b1 this

/-! ## The surfaces that are kept -/

/-- A block comes back with its surfaces, up to order. -/
def SurfacesKept (m : Model D) (b : Block) (r : RBlock) : Prop := r.boundaries.Perm (b.boundaries.map (place m)) ∧ r.internals.Perm (b.internals.map (place m))

theorem count_place {m : Model D} {l : List Nat} (hl : ∀ i ∈ l, i ∈ written m) {i : Nat} (hi : i ∈ written m) : (l.map (place m)).count (place m i) = l.count i := by
  induction l with
  | nil => rfl
  | cons a l ih =>
    rw [List.map_cons, List.count_cons, List.count_cons, ih fun i hi => hl i (List.mem_cons_of_mem _ hi)]
    by_cases h : a = i
    · simp [h]
    · have : place m a ≠ place m i := fun e => h (place_inj (hl a List.mem_cons_self) hi e)
      simp [h, this]

theorem count_listed (b : Block) (i : Nat) : (listedIn b).count i = b.boundaries.count i + 2 * b.internals.count i := by
  unfold listedIn
  rw [List.count_append]
  congr 1
  induction b.internals with
  | nil => rfl
  | cons a l ih =>
    rw [List.flatMap_cons, List.count_append, ih, List.count_cons]
    by_cases h : a = i
    · simp [h]; omega
    · simp [h]

theorem mem_listed {b : Block} {i : Nat} : i ∈ listedIn b ↔ i ∈ b.boundaries ∨ i ∈ b.internals := by
  unfold listedIn
  rw [List.mem_append]
  simp

/-- **When the surfaces of a block are kept**: they are exactly when none is twice on its boundary, and none on its boundary is internal too, unless another
surface of the block is written after it. -/
theorem kept_iff {m : Model D} {b : Block} {r : RBlock} (h : BlockBack m b r) : SurfacesKept m b r ↔
    b.boundaries.Nodup ∧ ∀ i ∈ b.boundaries, i ∈ b.internals → ∃ j ∈ listedIn b, place m i < place m j := by
  obtain ⟨_, h, known⟩ := h
  have kb : ∀ i ∈ b.boundaries, i ∈ written m := fun i hi => known i (mem_listed.2 (.inl hi))
  have ki : ∀ i ∈ b.internals, i ∈ written m := fun i hi => known i (mem_listed.2 (.inr hi))
  have counts : ∀ i ∈ written m, ((listedIn b).map (place m)).count (place m i) = b.boundaries.count i + 2 * b.internals.count i := by
    intro i hi
    rw [count_place known hi, count_listed]
  have larger : ∀ i, (∃ n ∈ (listedIn b).map (place m), place m i < n) ↔ ∃ j ∈ listedIn b, place m i < place m j := by
    intro i
    constructor
    · rintro ⟨n, hn, h⟩
      obtain ⟨j, hj, rfl⟩ := List.mem_map.1 hn
      exact ⟨j, hj, h⟩
    · rintro ⟨j, hj, h⟩
      exact ⟨_, List.mem_map.2 ⟨j, hj, rfl⟩, h⟩
  unfold SurfacesKept
  rw [List.perm_iff_count, List.perm_iff_count]
  constructor
  · rintro ⟨h1, h2⟩
    have le : ∀ i, b.boundaries.count i ≤ 1 := by
      intro i
      by_cases hi : i ∈ b.boundaries
      · have e2 := h2 (place m i)
        rw [h.internals, counts i (kb i hi), count_place ki (kb i hi)] at e2
        omega
      · rw [List.count_eq_zero_of_not_mem hi]; omega
    refine ⟨List.nodup_iff_count_le_one.2 le, fun i hi hi' => ?_⟩
    have e1 := h1 (place m i)
    have pos := List.count_pos_iff.2 hi
    have pos' := List.count_pos_iff.2 hi'
    have := le i
    rw [h.boundaries, counts i (kb i hi), count_place kb (kb i hi)] at e1
    by_contra hn
    rw [if_neg] at e1
    · omega
    · rintro ⟨_, h3 | h3⟩
      · omega
      · exact hn ((larger i).1 h3)
  · rintro ⟨hd, hl⟩
    have le := fun i => List.nodup_iff_count_le_one.1 hd i
    constructor
    · intro k
      rw [h.boundaries]
      by_cases hk : ∃ i ∈ listedIn b, place m i = k
      · obtain ⟨i, hi, rfl⟩ := hk
        have hw := known i hi
        rw [counts i hw, count_place kb hw]
        have := le i
        by_cases hb : i ∈ b.boundaries
        · have pos := List.count_pos_iff.2 hb
          rw [if_pos, show b.boundaries.count i = 1 by omega]
          refine ⟨by omega, ?_⟩
          by_cases hi' : i ∈ b.internals
          · exact .inr ((larger i).2 (hl i hb hi'))
          · left
            rw [List.count_eq_zero_of_not_mem hi']
            omega
        · rw [List.count_eq_zero_of_not_mem hb, if_neg (by omega)]
      · have z : ∀ l : List Nat, (∀ i ∈ l, i ∈ listedIn b) → (l.map (place m)).count k = 0 := by
          intro l hl
          refine List.count_eq_zero_of_not_mem fun hm => ?_
          obtain ⟨i, hi, e⟩ := List.mem_map.1 hm
          exact hk ⟨i, hl i hi, e⟩
        rw [z _ (fun _ h => h), z _ (fun i hi => mem_listed.2 (.inl hi)), if_neg (by omega)]
    · intro k
      rw [h.internals]
      by_cases hk : ∃ i ∈ listedIn b, place m i = k
      · obtain ⟨i, hi, rfl⟩ := hk
        have hw := known i hi
        rw [counts i hw, count_place ki hw]
        have := le i
        omega
      · have z : ∀ l : List Nat, (∀ i ∈ l, i ∈ listedIn b) → (l.map (place m)).count k = 0 := by
          intro l hl
          refine List.count_eq_zero_of_not_mem fun hm => ?_
          obtain ⟨i, hi, e⟩ := List.mem_map.1 hm
          exact hk ⟨i, hl i hi, e⟩
        rw [z _ (fun _ h => h), z _ (fun i hi => mem_listed.2 (.inr hi))]

/-- **The surfaces of blocks survive**: in every model that loads, a block whose boundary and internal surfaces are all different, and that is not named as
the universe, comes back with them. -/
theorem surfaces_kept [LawfulNum D] (hp : PlainNumbers D) {m : Model D} (g : Sane m) {sides : Sides.AllSides} {f : File} (hf : saveMl m sides = .ok f) {L : Loaded D}
    (hL : loadMl f = .ok L) (hd : ∀ b ∈ inside m, (b.boundaries ++ b.internals).Nodup) : List.Forall₂ (SurfacesKept m) (inside m) L.blocks := by
  have h := blocks_back hp g hf hL
  revert hd
  generalize inside m = bs at h ⊢
  generalize L.blocks = rs at h ⊢
  induction h with
  | nil => intro _; exact .nil
  | cons h1 _ ih =>
    intro hd
    have hn := List.nodup_append.1 (hd _ List.mem_cons_self)
    exact .cons ((kept_iff h1).2 ⟨hn.1, fun i hi hi' => absurd rfl (hn.2.2 i hi i hi')⟩) (ih fun b hb => hd b (List.mem_cons_of_mem _ hb))

/-! ### Instances -/

theorem full_sane : Sane MlCases.full where
  meshes := MlCases.full_good.meshes
  points := by
    intro c hc ss h
    have : c = (.ok cs!"boundary", .ok (componentName cs!"top side"), [1, 2]) ∨ c = (.ok (faultText .normal), nameValue (some cs!"f"), [3]) ∨
        c = (contactText .conformal, nameValue (some cs!"h"), [4]) := by
      simpa [collections, MlCases.full, faultsOf, horizonsOf] using hc
    rcases this with rfl | rfl | rfl
    · have e : Res.mapM' (surfaceOf MlCases.full) [1, 2] = .ok [MlCases.tri 1, MlCases.tri 2] := rfl
      rw [← Res.ok.inj (e.symm.trans h)]
      decide +kernel
    · have e : Res.mapM' (surfaceOf MlCases.full) [3] = .ok [MlCases.tri 3] := rfl
      rw [← Res.ok.inj (e.symm.trans h)]
      decide +kernel
    · have e : Res.mapM' (surfaceOf MlCases.full) [4] = .ok [MlCases.tri 4] := rfl
      rw [← Res.ok.inj (e.symm.trans h)]
      decide +kernel
  loose := by decide +kernel
  size := by decide +kernel

/-- A model with two blocks, one of which has an internal surface. -/
example : ∃ L : Loaded Int, List.Forall₂ (SurfacesKept MlCases.full) MlCases.full.blocks L.blocks := by
  obtain ⟨f, L, hf, hL, _⟩ := MlRoundTrip.round_trip MlCases.plain_int MlCases.full_good
  have e : inside MlCases.full = MlCases.full.blocks := List.filter_eq_self.2 (by decide +kernel)
  have := surfaces_kept MlCases.plain_int full_sane hf hL (by rw [e]; decide)
  rw [e] at this
  exact ⟨L, this⟩

/-- A test: the order of the surfaces of the model with a shared surface. -/
example : written MlCases.shared = [1, 2, 3] ∧ listedIn ⟨11, cs!"b", [1, 2], [3]⟩ = [1, 2, 3, 3] := by decide +kernel

/-- A test: the surface 2, on the boundary and internal, is only internal afterwards, since no surface of the block is written after it; the surface 1 is kept. -/
example : Bounds [0, 1, 1, 1] [0] [1] ∧ Bounds [0, 0, 0, 1] [0, 1] [0] := by
  refine ⟨⟨by decide, by decide, fun k => ?_, fun k => ?_⟩, ⟨by decide, by decide, fun k => ?_, fun k => ?_⟩⟩ <;>
    rcases k with _ | _ | k <;> simp

end Verif.Props.MlBlocks
