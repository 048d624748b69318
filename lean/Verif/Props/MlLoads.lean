import Verif.Props.MlCollections
import Verif.Props.MlFile

/-!
# C60: which saved ML models load

The models whose saved file loads, among all those with sane meshes.
-/

set_option linter.unusedSectionVars false

namespace Verif.Props.MlLoads

open Verif Verif.Gocad Verif.GocadMesh Verif.Ml Res
open Verif.Props.MlOutcomes (Record Records Listed names faces Parts ml_loads_iff names_append faces_append ids feature FineFrom Fine Meshes meshes_iff)
open Verif.Props.WlOutcomes (First goto_iff)
open Verif.Props.PropHeaders (mapM'_iff)
open Verif.Props.MlGroups
open Verif.Props.MlCollections
open Verif.Props.MlNames (split_region split_universe)

variable {D : Type} [Num D]

/-! ## The records of a file are unique -/

theorem values_unique {A : Type} {num : Str → Option A} {zero : A} {ws : List Str} {vs vs' : List A} (h : List.Forall₂ (fun w v => num w = some v ∧ v ≠ zero) ws vs)
    (h' : List.Forall₂ (fun w v => num w = some v ∧ v ≠ zero) ws vs') : vs = vs' := by
  induction h generalizing vs' with
  | nil => cases h'; rfl
  | cons h1 _ ih =>
    cases h' with
    | cons h2 h3 =>
      have := h1.1.symm.trans h2.1
      rw [Option.some.inj this, ih h3]

theorem nonzero {A : Type} {num : Str → Option A} {zero : A} {ws : List Str} {vs : List A} (h : List.Forall₂ (fun w v => num w = some v ∧ v ≠ zero) ws vs) :
    ∀ w ∈ ws, num w ≠ some zero := by
  intro w hw
  obtain ⟨i, hi, rfl⟩ := List.getElem_of_mem hw
  have := h.get hi (by rw [← h.length_eq]; exact hi)
  intro e
  have e' := this.1
  simp only [List.get_eq_getElem] at e' this
  rw [e] at e'
  exact this.2 (Option.some.inj e').symm

theorem first_unique {A : Type} {P : A → Prop} : ∀ {a a' : List A} {z z' : A} {b b' : List A}, a ++ z :: b = a' ++ z' :: b' → (∀ x ∈ a, ¬P x) → (∀ x ∈ a', ¬P x) →
    P z → P z' → a = a' ∧ z = z' ∧ b = b' := by
  intro a
  induction a with
  | nil =>
    intro a' z z' b b' e _ h' hz hz'
    cases a' with
    | nil => simpa using e
    | cons x a' =>
      rw [List.nil_append, List.cons_append, List.cons.injEq] at e
      exact absurd (e.1 ▸ hz) (h' x List.mem_cons_self)
  | cons x a ih =>
    intro a' z z' b b' e h h' hz hz'
    cases a' with
    | nil =>
      rw [List.nil_append, List.cons_append, List.cons.injEq] at e
      exact absurd (e.1 ▸ hz') (h x List.mem_cons_self)
    | cons y a' =>
      rw [List.cons_append, List.cons_append, List.cons.injEq] at e
      obtain ⟨r1, r2⟩ := ih e.2 (fun x hx => h x (List.mem_cons_of_mem _ hx)) (fun x hx => h' x (List.mem_cons_of_mem _ hx)) hz hz'
      exact ⟨by rw [e.1, r1], r2⟩

theorem listed_unique {A : Type} {num : Str → Option A} {zero : A} {f : File} {vs vs' : List A} {rest rest' : File} (h : Listed num zero f vs rest)
    (h' : Listed num zero f vs' rest') : vs = vs' ∧ rest = rest' := by
  obtain ⟨ls, l, a, z, b, rfl, hs, hz, hv⟩ := h
  obtain ⟨ls', l', a', z', b', e, hs', hz', hv'⟩ := h'
  have n1 := nonzero hv
  have n2 := nonzero hv'
  obtain ⟨e1, e2, e3⟩ := first_unique (P := fun l : Str => ∃ w ∈ split l, num w = some zero) e
    (fun x hx ⟨w, hw, e⟩ => n1 w (List.mem_append_left _ (List.mem_flatMap.2 ⟨x, hx, hw⟩)) e)
    (fun x hx ⟨w, hw, e⟩ => n2 w (List.mem_append_left _ (List.mem_flatMap.2 ⟨x, hx, hw⟩)) e)
    ⟨z, by rw [hs]; simp, hz⟩ ⟨z', by rw [hs']; simp, hz'⟩
  subst e1 e2 e3
  rw [hs] at hs'
  obtain ⟨e1, -, -⟩ := first_unique (P := fun w : Str => num w = some zero) hs' (fun w hw => n1 w (List.mem_append_right _ hw))
    (fun w hw => n2 w (List.mem_append_right _ hw)) hz hz'
  subst e1
  exact ⟨values_unique hv hv', rfl⟩

theorem records_unique {f : File} {rs rs' : List Record} {rest rest' : File} (h : Records f rs rest) (h' : Records f rs' rest') : rs = rs' ∧ rest = rest' := by
  induction h generalizing rs' rest' with
  | @done l rest h =>
    cases h' with
    | done => exact ⟨rfl, rfl⟩
    | _ => simp_all
  | @tsurf l w ws ls rs rest h h1 h2 ih =>
    cases h' with
    | done => simp_all
    | tsurf g g1 g2 =>
      rw [h1] at g1
      obtain ⟨e1, e2⟩ : _ ∧ _ := by simpa using g1
      obtain ⟨r1, r2⟩ := ih g2
      rw [e1, e2, r1, r2]; exact ⟨rfl, rfl⟩
    | other g g1 g2 g3 => rw [h1] at g1; exact absurd (by rw [← (List.cons.inj g1).1]; decide) g2
    | _ => simp_all
  | @tface l a feature w ws ls rs rest h h1 h2 ih =>
    cases h' with
    | done => simp_all
    | tface g g1 g2 =>
      rw [h1] at g1
      obtain ⟨-, e0, e1, e2⟩ : _ ∧ _ ∧ _ ∧ _ := by simpa using g1
      obtain ⟨r1, r2⟩ := ih g2
      rw [e0, e1, e2, r1, r2]; exact ⟨rfl, rfl⟩
    | other g g1 g2 g3 => rw [h1] at g1; exact absurd (by rw [← (List.cons.inj g1).1]; decide) g2
    | _ => simp_all
  | @outside l a w ws ls ns f rs rest h h1 h2 h3 h4 ih =>
    cases h' with
    | done => simp_all
    | outside g g1 g2 g3 g4 =>
      obtain ⟨rfl, rfl⟩ := listed_unique h3 g3
      obtain ⟨r1, r2⟩ := ih g4
      rw [r1, r2]; exact ⟨rfl, rfl⟩
    | block g g1 g2 g3 g4 =>
      rw [h1] at g1
      obtain ⟨-, e1, e2⟩ : _ ∧ _ ∧ _ := by simpa using g1
      rw [e1, e2] at h2
      exact absurd h2 g2
    | other g g1 g2 g3 => rw [h1] at g1; exact absurd (by rw [← (List.cons.inj g1).1]; decide) g2
    | _ => simp_all
  | @block l a w ws ls ns f rs rest h h1 h2 h3 h4 ih =>
    cases h' with
    | done => simp_all
    | outside g g1 g2 g3 g4 =>
      rw [h1] at g1
      obtain ⟨-, e1, e2⟩ : _ ∧ _ ∧ _ := by simpa using g1
      rw [← e1, ← e2] at g2
      exact absurd g2 h2
    | block g g1 g2 g3 g4 =>
      rw [h1] at g1
      obtain ⟨-, e1, e2⟩ : _ ∧ _ ∧ _ := by simpa using g1
      obtain ⟨rfl, rfl⟩ := listed_unique h3 g3
      obtain ⟨r1, r2⟩ := ih g4
      rw [e1, e2, r1, r2]; exact ⟨rfl, rfl⟩
    | other g g1 g2 g3 => rw [h1] at g1; exact absurd (by rw [← (List.cons.inj g1).1]; decide) g2
    | _ => simp_all
  | @layer l w ws ls ns f rs rest h h1 h3 h4 ih =>
    cases h' with
    | done => simp_all
    | layer g g1 g3 g4 =>
      rw [h1] at g1
      obtain ⟨e1, e2⟩ : _ ∧ _ := by simpa using g1
      obtain ⟨rfl, rfl⟩ := listed_unique h3 g3
      obtain ⟨r1, r2⟩ := ih g4
      rw [e1, e2, r1, r2]; exact ⟨rfl, rfl⟩
    | other g g1 g2 g3 => rw [h1] at g1; exact absurd (by rw [← (List.cons.inj g1).1]; decide) g2
    | _ => simp_all
  | @faultBlock l w ws ls ns f rs rest h h1 h3 h4 ih =>
    cases h' with
    | done => simp_all
    | faultBlock g g1 g3 g4 =>
      rw [h1] at g1
      obtain ⟨e1, e2⟩ : _ ∧ _ := by simpa using g1
      obtain ⟨rfl, rfl⟩ := listed_unique h3 g3
      obtain ⟨r1, r2⟩ := ih g4
      rw [e1, e2, r1, r2]; exact ⟨rfl, rfl⟩
    | other g g1 g2 g3 => rw [h1] at g1; exact absurd (by rw [← (List.cons.inj g1).1]; decide) g2
    | _ => simp_all
  | @other l k w ws ls rs rest h h1 h2 h3 ih =>
    cases h' with
    | done => simp_all
    | other g g1 g2 g3 => exact ih g3
    | tsurf g g1 => rw [h1] at g1; exact absurd (by rw [(List.cons.inj g1).1]; decide) h2
    | tface g g1 => rw [h1] at g1; exact absurd (by rw [(List.cons.inj g1).1]; decide) h2
    | outside g g1 => rw [h1] at g1; exact absurd (by rw [(List.cons.inj g1).1]; decide) h2
    | block g g1 => rw [h1] at g1; exact absurd (by rw [(List.cons.inj g1).1]; decide) h2
    | layer g g1 => rw [h1] at g1; exact absurd (by rw [(List.cons.inj g1).1]; decide) h2
    | faultBlock g g1 => rw [h1] at g1; exact absurd (by rw [(List.cons.inj g1).1]; decide) h2

/-! ## The records written -/

/-- Lines with records, before other lines. -/
def Rec (ls : File) (rs : List Record) : Prop := ∀ (g : File) (qs : List Record) (rest : File), Records g qs rest → Records (ls ++ g) (rs ++ qs) rest

theorem rec_nil : Rec [] [] := fun _ _ _ h => h

theorem Rec.append {a b : File} {x y : List Record} (h : Rec a x) (h' : Rec b y) : Rec (a ++ b) (x ++ y) := fun g qs rest hr => by
  rw [List.append_assoc, List.append_assoc]
  exact h _ _ _ (h' _ _ _ hr)

theorem words_of {n : Str} (h : split n ≠ []) : ∃ w ws, split n = w :: ws := by
  cases hs : split n with
  | nil => exact absurd hs h
  | cons w ws => exact ⟨w, ws, rfl⟩

theorem rec_tsurfs {ns : List Str} (h : ∀ n ∈ ns, split n ≠ []) : Rec (ns.map fun n => cs!"TSURF" ++ spaced [n]) (ns.map fun n => .tsurf (readAs n)) := by
  induction ns with
  | nil => exact rec_nil
  | cons n ns ih =>
    intro g qs rest hr
    obtain ⟨w, ws, hw⟩ := words_of (h n List.mem_cons_self)
    have hs : split (cs!"TSURF" ++ spaced [n]) = cs!"TSURF" :: w :: ws := by rw [split_kw_spaced' (by decide)]; simp [hw]
    rw [List.map_cons, List.map_cons, List.cons_append, List.cons_append, readAs, hw]
    exact .tsurf rfl hs (ih (fun n hn => h n (List.mem_cons_of_mem _ hn)) _ _ _ hr)

theorem rec_key [LawfulNum D] (hp : PlainNumbers D) {s : Ml.Surface D} {ls : File} (h : keyTriangle s = .ok ls) : Rec ls [] := by
  have line : ∀ {v : Nat} {l : Str}, keyLine s v = .ok l → Rec [l] [] := by
    intro v l h g qs rest hr
    unfold keyLine at h
    obtain ⟨p, _, h⟩ := bind_eq_ok.1 h
    rw [pure_eq] at h
    rw [← Res.ok.inj h]
    have e : split (cs!"  " ++ join p.toks) = [Num.fmt p.x, Num.fmt p.y, Num.fmt p.z] := by
      have : cs!"  " ++ join p.toks = ' ' :: ' ' :: join p.toks := rfl
      rw [this, split_space, split_space, split_join (isTok_toks p)]
      rfl
    refine .other rfl e ?_ hr
    intro hm
    refine hp p.x ?_
    generalize Num.fmt p.x = t at hm
    simp only [MlOutcomes.keywords, List.mem_cons, List.not_mem_nil, or_false] at hm
    rcases hm with rfl | rfl | rfl | rfl | rfl <;> decide
  unfold keyTriangle at h
  obtain ⟨t, _, h⟩ := bind_eq_ok.1 h
  obtain ⟨a, ha, h⟩ := bind_eq_ok.1 h
  obtain ⟨b, hb, h⟩ := bind_eq_ok.1 h
  obtain ⟨c, hc, h⟩ := bind_eq_ok.1 h
  rw [pure_eq] at h
  rw [← Res.ok.inj h]
  exact Rec.append (line ha) (Rec.append (line hb) (line hc))

/-- The numbers of surfaces are those given so far. -/
def Nums (st : Faces) : Prop := 1 ≤ st.next ∧ ∀ e ∈ st.comps, 1 ≤ e.2 ∧ e.2 < st.next

/-- Surfaces are written: their lines, and their numbers. -/
def Step (st st' : Faces) (fs : List (Str × Str)) : Prop :=
  ∃ ls, st'.out = st.out ++ ls ∧ Rec ls (fs.map fun x => .tface x.1 x.2) ∧ st'.next = st.next + fs.length ∧ (Nums st → Nums st')

theorem Step.refl (st : Faces) : Step st st [] := ⟨[], by simp, rec_nil, rfl, id⟩

theorem Step.trans {a b c : Faces} {x y : List (Str × Str)} (h : Step a b x) (h' : Step b c y) : Step a c (x ++ y) := by
  obtain ⟨l, o, r, n, i⟩ := h
  obtain ⟨l', o', r', n', i'⟩ := h'
  refine ⟨l ++ l', by rw [o', o, List.append_assoc], ?_, by rw [n', n, List.length_append, Nat.add_assoc], i' ∘ i⟩
  rw [List.map_append]
  exact r.append r'

theorem step_face [LawfulNum D] (hp : PlainNumbers D) {st st' : Faces} {kind name : Str} {s : Ml.Surface D} (hk : IsTok kind) (hn : split name ≠ [])
    (h : writeFace st kind name s = .ok st') : Step st st' [(kind, readAs name)] := by
  unfold writeFace at h
  obtain ⟨key, h1, h⟩ := bind_eq_ok.1 h
  rw [pure_eq] at h
  rw [← Res.ok.inj h]
  obtain ⟨w, ws, hw⟩ := words_of hn
  refine ⟨_, rfl, ?_, rfl, ?_⟩
  · intro g qs rest hr
    have hs : split (cs!"TFACE" ++ spaced [showNat st.next, kind, name]) = cs!"TFACE" :: showNat st.next :: kind :: w :: ws := by
      rw [split_kw_spaced' (by decide)]
      simp [split_tok (isTok_showNat st.next), split_tok hk, hw]
    have := Records.tface rfl hs (rec_key hp h1 _ _ _ hr)
    rw [readAs, hw]
    exact this
  · rintro ⟨i0, i⟩
    refine ⟨Nat.le_succ_of_le i0, fun e he => ?_⟩
    dsimp only at he ⊢
    unfold Sides.emplace at he
    split at he
    · have := i e he; omega
    · rcases List.mem_append.1 he with he | he
      · have := i e he; omega
      · rw [List.mem_singleton.1 he]
        dsimp only
        omega

theorem step_items [LawfulNum D] (hp : PlainNumbers D) {m : Model D} {kind name : Res Str} (hk : ∀ k, kind = .ok k → IsTok k) (hn : split (val name) ≠ []) :
    ∀ (is : List Nat) {seen : List Nat} {st st' : Faces}, (∀ i, Written st i ↔ i ∈ seen) → Res.foldM' (writeItem m kind name) st is = .ok st' →
      Step st st' (List.replicate (fresh seen is).length (val kind, readAs (val name))) := by
  intro is
  induction is with
  | nil => intro seen st st' hs h; cases h; exact Step.refl _
  | cons i is ih =>
    intro seen st st' hs h
    rw [Res.foldM'_cons] at h
    obtain ⟨s1, h1, h⟩ := bind_eq_ok.1 h
    unfold writeItem at h1
    split at h1
    · rename_i hw
      cases h1
      rw [fresh, if_pos ((hs i).1 hw)]
      exact ih hs h
    · rename_i hw
      have hi : i ∉ seen := fun h' => hw ((hs i).2 h')
      obtain ⟨k, e1, h1⟩ := bind_eq_ok.1 h1
      obtain ⟨n, e2, h1⟩ := bind_eq_ok.1 h1
      obtain ⟨s, e3, h1⟩ := bind_eq_ok.1 h1
      obtain ⟨_, _, _, w1⟩ := part_face hp (hk k e1) h1
      rw [surfaceOf_id' e3] at w1
      have h2 := ih (seen := i :: seen) (fun j => by rw [w1, hs j, List.mem_cons, or_comm]) h
      rw [fresh, if_neg hi, List.length_cons, List.replicate_succ]
      rw [e2] at hn
      have h1' := step_face hp (hk k e1) hn h1
      rw [e1, e2] at h2 ⊢
      exact h1'.trans h2

theorem step_groups [LawfulNum D] (hp : PlainNumbers D) {m : Model D} :
    ∀ (cs : List Group) {seen : List Nat} {st st' : Faces}, (∀ c ∈ cs, ∀ k, c.1 = .ok k → IsTok k) → (∀ c ∈ cs, split (val c.2.1) ≠ []) →
      (∀ i, Written st i ↔ i ∈ seen) →
      Res.foldM' (fun st (c : Group) => Res.foldM' (writeItem m c.1 c.2.1) st c.2.2) st cs = .ok st' → Step st st' (expand (rowsFrom seen cs)) := by
  intro cs
  induction cs with
  | nil => intro seen st st' _ _ _ h; cases h; exact Step.refl _
  | cons c cs ih =>
    intro seen st st' hk hn hs h
    rw [Res.foldM'_cons] at h
    obtain ⟨s1, h1, h⟩ := bind_eq_ok.1 h
    obtain ⟨_, _, _, w1⟩ := part_items hp (hk c List.mem_cons_self) c.2.2 hs h1
    exact (step_items hp (hk c List.mem_cons_self) (hn c List.mem_cons_self) c.2.2 hs h1).trans
      (ih (fun c hc => hk c (List.mem_cons_of_mem _ hc)) (fun c hc => hn c (List.mem_cons_of_mem _ hc)) w1 h)

theorem step_loose [LawfulNum D] (hp : PlainNumbers D) :
    ∀ (ss : List (Ml.Surface D)) {st st' : Faces}, (∀ s ∈ ss, split (componentName s.name) ≠ []) →
      Res.foldM' (fun st (s : Ml.Surface D) => writeFace st cs!"boundary" (componentName s.name) s) st ss = .ok st' → Step st st' (expand (looseRows ss)) := by
  intro ss
  induction ss with
  | nil => intro st st' _ h; cases h; exact Step.refl _
  | cons s ss ih =>
    intro st st' hn h
    rw [Res.foldM'_cons] at h
    obtain ⟨s1, h1, h⟩ := bind_eq_ok.1 h
    exact (step_face hp (by decide) (hn s List.mem_cons_self) h1).trans (ih (fun s hs => hn s (List.mem_cons_of_mem _ hs)) h)

/-! ## Lists of numbers written -/

theorem listed_wrapped {A : Type} {num : Str → Option A} {zero : A} (hz : num cs!"0" = some zero) {xs : List Str} {vs : List A} (ht : ∀ x ∈ xs, IsTok x)
    (hv : List.Forall₂ (fun w v => num w = some v ∧ v ≠ zero) xs vs) (g : File) : Listed num zero (wrapped cs!"  " 0 xs ++ g) vs g := by
  obtain ⟨fives, last, h1, _, _, h4⟩ := MlFile.listed_of ht
  obtain ⟨ls, l, e, e1, e2⟩ : ∃ ls l, wrapped cs!"  " 0 xs = ls ++ [l] ∧ ls.map split = fives ∧ split l = last ++ [cs!"0"] := by
    obtain ⟨a, b, e, e1, e2⟩ := List.map_eq_append_iff.1 h1
    obtain ⟨l, rfl, e3⟩ := List.map_eq_singleton_iff.1 e2
    exact ⟨a, l, e, e1, e3⟩
  refine ⟨ls, l, last, cs!"0", [], by rw [e]; simp, e2, hz, ?_⟩
  rw [List.flatMap_def, e1, h4]
  exact hv

theorem signed_listed {s : Nat} (hs : s < 2147483648) {xs : List Str} (h : ∀ x ∈ xs, ∃ side n, x = signed side n ∧ 1 ≤ n ∧ n ≤ s) :
    ∃ ns : List Int, ns.length = xs.length ∧ (∀ z ∈ ns, MlOutcomes.Surface s z) ∧ ∀ g, Listed parseInt 0 (wrapped cs!"  " 0 xs ++ g) ns g := by
  have : ∃ ns : List Int, (∀ z ∈ ns, MlOutcomes.Surface s z) ∧ List.Forall₂ (fun w v => parseInt w = some v ∧ v ≠ 0) xs ns := by
    induction xs with
    | nil => exact ⟨[], by simp, .nil⟩
    | cons x xs ih =>
      obtain ⟨ns, h1, h2⟩ := ih (fun x hx => h x (List.mem_cons_of_mem _ hx))
      obtain ⟨side, n, rfl, n1, n2⟩ := h x List.mem_cons_self
      refine ⟨(if side then (n : Int) else -(n : Int)) :: ns, ?_, .cons ⟨parseInt_signed (by omega), ?_⟩ h2⟩
      · refine List.forall_mem_cons.2 ⟨?_, h1⟩
        unfold MlOutcomes.Surface
        cases side <;> simp <;> omega
      · cases side <;> simp <;> omega
  obtain ⟨ns, h1, h2⟩ := this
  refine ⟨ns, h2.length_eq.symm, h1, listed_wrapped (by decide) ?_ h2⟩
  intro x hx
  obtain ⟨side, n, rfl, _⟩ := h x hx
  exact isTok_signed side n

theorem index_listed {xs : List Str} (h : ∀ x ∈ xs, ∃ n, x = showNat n ∧ 1 ≤ n ∧ n < W) : ∃ ns : List Nat, ∀ g, Listed parseIndex 0 (wrapped cs!"  " 0 xs ++ g) ns g := by
  have : ∃ ns : List Nat, List.Forall₂ (fun w v => parseIndex w = some v ∧ v ≠ 0) xs ns := by
    induction xs with
    | nil => exact ⟨[], .nil⟩
    | cons x xs ih =>
      obtain ⟨ns, h2⟩ := ih (fun x hx => h x (List.mem_cons_of_mem _ hx))
      obtain ⟨n, rfl, n1, n2⟩ := h x List.mem_cons_self
      exact ⟨n :: ns, .cons ⟨parseIndex_showNat n2, by omega⟩ h2⟩
  obtain ⟨ns, h2⟩ := this
  refine ⟨ns, listed_wrapped (by decide) ?_ h2⟩
  intro x hx
  obtain ⟨n, rfl, _⟩ := h x hx
  exact isTok_showNat n

theorem atKey_mem {K V : Type} [DecidableEq K] {l : List (K × V)} {k : K} {v : V} (h : atKey l k = .ok v) : (k, v) ∈ l := by
  unfold atKey at h
  cases hf : Sides.find l k with
  | none => rw [hf] at h; cases h
  | some x =>
    rw [hf] at h
    rw [← Res.ok.inj h]
    exact Sides.find_mem hf

theorem rec_universe {m : Model D} {sides : Sides.AllSides} {st : Faces} (hst : Nums st) (hs : st.next ≤ 2147483648) {ls : File}
    (h : writeUniverse m sides st.comps st.next = .ok ls) : ∃ ns : List Int, (∀ z ∈ ns, MlOutcomes.Surface (st.next - 1) z) ∧ Rec ls [.outside ns] := by
  unfold writeUniverse at h
  obtain ⟨items, h1, h⟩ := bind_eq_ok.1 h
  rw [pure_eq] at h
  rw [← Res.ok.inj h]
  obtain ⟨ns, _, n2, n3⟩ := signed_listed (s := st.next - 1) (by have := hst.1; omega) (xs := items) (by
    intro x hx
    obtain ⟨i, _, e⟩ := mapM_mem h1 hx
    obtain ⟨side, _, e⟩ := bind_eq_ok.1 e
    obtain ⟨k, hk, e⟩ := bind_eq_ok.1 e
    rw [pure_eq] at e
    have := hst.2 _ (atKey_mem hk)
    exact ⟨side, k, (Res.ok.inj e).symm, this.1, by have := this.2; dsimp only at this; omega⟩)
  refine ⟨ns, n2, fun g qs rest hr => ?_⟩
  rw [List.cons_append, List.singleton_append]
  exact .outside rfl (split_universe _) rfl (n3 g) hr

theorem signed_placed {s : Nat} (hs : s < 2147483648) {xs : List Str} {ks : List Nat} (h : List.Forall₂ (fun x k => ∃ side, x = signed side (k + 1) ∧ k + 1 ≤ s) xs ks) :
    ∃ ns : List Int, ns.map MlOutcomes.place = ks ∧ (∀ z ∈ ns, MlOutcomes.Surface s z) ∧ ∀ g, Listed parseInt 0 (wrapped cs!"  " 0 xs ++ g) ns g := by
  have toks : ∀ x ∈ xs, IsTok x := by
    intro x hx
    obtain ⟨i, hi, rfl⟩ := List.getElem_of_mem hx
    obtain ⟨side, e, _⟩ := h.get hi (by rw [← h.length_eq]; exact hi)
    rw [List.get_eq_getElem] at e
    rw [e]
    exact isTok_signed _ _
  have : ∃ ns : List Int, ns.map MlOutcomes.place = ks ∧ (∀ z ∈ ns, MlOutcomes.Surface s z) ∧ List.Forall₂ (fun w v => parseInt w = some v ∧ v ≠ 0) xs ns := by
    clear toks
    induction h with
    | nil => exact ⟨[], rfl, by simp, .nil⟩
    | @cons x k xs ks h1 _ ih =>
      obtain ⟨ns, i1, i2, i3⟩ := ih
      obtain ⟨side, rfl, h2⟩ := h1
      refine ⟨(if side then ((k + 1 : Nat) : Int) else -((k + 1 : Nat) : Int)) :: ns, ?_, ?_, .cons ⟨parseInt_signed (by omega), ?_⟩ i3⟩
      · rw [List.map_cons, i1]
        congr 1
        unfold MlOutcomes.place
        cases side <;> simp <;> omega
      · refine List.forall_mem_cons.2 ⟨?_, i2⟩
        unfold MlOutcomes.Surface
        cases side <;> simp <;> omega
      · cases side <;> simp <;> omega
  obtain ⟨ns, h1, h2, h3⟩ := this
  exact ⟨ns, h1, h2, listed_wrapped (by decide) toks h3⟩

/-- The surfaces that the record of a block lists: the internal ones twice. -/
def listedIn (b : Block) : List Nat := b.boundaries ++ b.internals.flatMap fun i => [i, i]

theorem listedIn_length (b : Block) : (listedIn b).length = b.boundaries.length + 2 * b.internals.length := by
  unfold listedIn
  rw [List.length_append]
  congr 1
  induction b.internals with
  | nil => rfl
  | cons i is ih => rw [List.flatMap_cons, List.length_append, ih, List.length_cons]; simp; omega

/-- The rank of a surface with a number. -/
def placeOf (comps : List (Nat × Nat)) (i : Nat) : Nat := (Sides.find comps i).getD 0 - 1

/-- The record of a block: one of the universe when the block is named so. -/
def BlockRec (comps : List (Nat × Nat)) (s : Nat) (b : Block) (r : Record) : Prop :=
  ∃ ns : List Int, ns.map MlOutcomes.place = (listedIn b).map (placeOf comps) ∧ (∀ i ∈ listedIn b, (Sides.find comps i).isSome) ∧ (∀ z ∈ ns, MlOutcomes.Surface s z) ∧
    r = if readAs (componentName b.name) = cs!"Universe" then .outside ns else .block (readAs (componentName b.name)) ns

theorem atKey_place {st : Faces} (hst : Nums st) {i k : Nat} (h : atKey st.comps i = .ok k) :
    (Sides.find st.comps i).isSome ∧ k = placeOf st.comps i + 1 ∧ placeOf st.comps i + 1 ≤ st.next - 1 := by
  have hm := hst.2 _ (atKey_mem h)
  unfold atKey at h
  unfold placeOf
  cases hf : Sides.find st.comps i with
  | none => rw [hf] at h; cases h
  | some x =>
    rw [hf] at h
    have := Res.ok.inj h
    dsimp only at hm
    refine ⟨rfl, ?_, ?_⟩ <;> simp <;> omega

theorem rec_region {sides : Sides.AllSides} {st : Faces} (hst : Nums st) (hs : st.next ≤ 2147483648) {n : Nat} {b : Block} (hb : split (componentName b.name) ≠ []) {ls : File}
    (h : writeRegion sides st.comps n b = .ok ls) : ∃ r, BlockRec st.comps (st.next - 1) b r ∧ Rec ls [r] := by
  unfold writeRegion at h
  obtain ⟨bounds, h1, h'⟩ := bind_eq_ok.1 h
  obtain ⟨inner, h2, h''⟩ := bind_eq_ok.1 h'
  rw [pure_eq] at h''
  rw [← Res.ok.inj h'']
  clear h h' h''
  rw [mapM'_iff] at h1 h2
  have f1 : List.Forall₂ (fun x k => ∃ side, x = signed side (k + 1) ∧ k + 1 ≤ st.next - 1) bounds (b.boundaries.map (placeOf st.comps)) ∧
      ∀ i ∈ b.boundaries, (Sides.find st.comps i).isSome := by
    clear h2
    generalize b.boundaries = l at h1
    induction h1 with
    | nil => exact ⟨.nil, by simp⟩
    | @cons i x is xs e _ ih =>
      obtain ⟨side, _, e⟩ := bind_eq_ok.1 e
      obtain ⟨k, hk, e⟩ := bind_eq_ok.1 e
      rw [pure_eq] at e
      obtain ⟨a1, a2, a3⟩ := atKey_place hst hk
      refine ⟨.cons ⟨side, by rw [← Res.ok.inj e, a2], a3⟩ ih.1, List.forall_mem_cons.2 ⟨a1, ih.2⟩⟩
  have f2 : List.Forall₂ (fun x k => ∃ side, x = signed side (k + 1) ∧ k + 1 ≤ st.next - 1) inner.flatten ((b.internals.flatMap fun i => [i, i]).map (placeOf st.comps)) ∧
      ∀ i ∈ b.internals, (Sides.find st.comps i).isSome := by
    clear h1 f1
    generalize b.internals = l at h2
    induction h2 with
    | nil => exact ⟨.nil, by simp⟩
    | @cons i x is xs e _ ih =>
      obtain ⟨k, hk, e⟩ := bind_eq_ok.1 e
      rw [pure_eq] at e
      obtain ⟨a1, a2, a3⟩ := atKey_place hst hk
      refine ⟨?_, List.forall_mem_cons.2 ⟨a1, ih.2⟩⟩
      rw [List.flatten_cons, List.flatMap_cons, List.map_append, ← Res.ok.inj e, a2]
      exact .cons ⟨true, rfl, a3⟩ (.cons ⟨false, rfl, a3⟩ ih.1)
  obtain ⟨ns, n1, n2, n3⟩ := signed_placed (s := st.next - 1) (by have := hst.1; omega) (forall₂_append f1.1 f2.1)
  rw [← List.map_append] at n1
  have known : ∀ i ∈ listedIn b, (Sides.find st.comps i).isSome := by
    intro i hi
    rcases List.mem_append.1 hi with hi | hi
    · exact f1.2 i hi
    · obtain ⟨j, hj, hi⟩ := List.mem_flatMap.1 hi
      simp only [List.mem_cons, List.not_mem_nil, or_false, or_self] at hi
      rw [hi]; exact f2.2 j hj
  obtain ⟨w, ws, hw⟩ := words_of hb
  refine ⟨_, ⟨ns, n1, known, n2, rfl⟩, fun g qs rest hr => ?_⟩
  have hsp : split (cs!"REGION" ++ spaced [showNat n, componentName b.name]) = cs!"REGION" :: showNat n :: w :: ws := by rw [split_region, hw]
  rw [List.cons_append, List.singleton_append, readAs, hw]
  by_cases hu : readName (w :: ws) = cs!"Universe"
  · rw [if_pos hu]
    exact .outside rfl hsp hu (n3 g) hr
  · rw [if_neg hu]
    exact .block rfl hsp hu (n3 g) hr

theorem rec_blocks {sides : Sides.AllSides} {st : Faces} (hst : Nums st) (hs : st.next ≤ 2147483648) : ∀ {bs : List Block} {n : Nat} {ls : File},
    (∀ b ∈ bs, split (componentName b.name) ≠ []) → writeBlocks sides st.comps n bs = .ok ls → ∃ rs, List.Forall₂ (BlockRec st.comps (st.next - 1)) bs rs ∧ Rec ls rs := by
  intro bs
  induction bs with
  | nil => intro n ls _ h; cases h; exact ⟨[], .nil, rec_nil⟩
  | cons b bs ih =>
    intro n ls hb h
    rw [writeBlocks] at h
    obtain ⟨x, h1, h⟩ := bind_eq_ok.1 h
    obtain ⟨y, h2, h⟩ := bind_eq_ok.1 h
    rw [pure_eq] at h
    rw [← Res.ok.inj h]
    obtain ⟨r, r1, r2⟩ := rec_region hst hs (hb b List.mem_cons_self) h1
    obtain ⟨rs, q1, q2⟩ := ih (fun b h => hb b (List.mem_cons_of_mem _ h)) h2
    exact ⟨r :: rs, .cons r1 q1, r2.append q2⟩

/-- The record of a collection of blocks. -/
def IsLayer (r : Record) : Prop := ∃ n ns, r = .layer n ns ∨ r = .faultBlock n ns

theorem mem_blockNumbers {bs : List Block} : ∀ {n : Nat} {e : Nat × Nat}, e ∈ blockNumbers n bs → n ≤ e.2 ∧ e.2 < n + bs.length := by
  induction bs with
  | nil => intro n e h; cases h
  | cons b bs ih =>
    intro n e h
    rcases List.mem_cons.1 h with rfl | h
    · simp
    · have := ih h
      rw [List.length_cons]; omega

theorem rec_layer {kw : Str} (hk : kw = cs!"LAYER" ∨ kw = cs!"FAULT_BLOCK") {bs : List Block} {n : Nat} (hn : 1 ≤ n) (hw : n + bs.length ≤ W)
    {u : Option Str × List Nat} (hu : split (val (nameValue u.1)) ≠ []) {ls : File} (h : writeLayer kw (blockNumbers n bs) u = .ok ls) :
    ∃ r, IsLayer r ∧ Rec ls [r] := by
  unfold writeLayer at h
  obtain ⟨name, h1, h⟩ := bind_eq_ok.1 h
  obtain ⟨items, h2, h⟩ := bind_eq_ok.1 h
  rw [pure_eq] at h
  rw [← Res.ok.inj h]
  rw [h1] at hu
  obtain ⟨w, ws, hw'⟩ := words_of hu
  obtain ⟨ns, hl⟩ := index_listed (xs := items) (by
    intro x hx
    obtain ⟨i, _, e⟩ := mapM_mem h2 hx
    obtain ⟨k, hk, e⟩ := bind_eq_ok.1 e
    rw [pure_eq] at e
    have := mem_blockNumbers (atKey_mem hk)
    dsimp only at this
    exact ⟨k, (Res.ok.inj e).symm, by omega, by omega⟩)
  rcases hk with rfl | rfl
  · refine ⟨.layer (readName (w :: ws)) ns, ⟨_, _, .inl rfl⟩, fun g qs rest hr => ?_⟩
    have hs : split (cs!"LAYER" ++ spaced [name]) = cs!"LAYER" :: w :: ws := by rw [split_kw_spaced' (by decide)]; simp; exact hw'
    rw [List.cons_append, List.singleton_append]
    exact .layer rfl hs (hl g) hr
  · refine ⟨.faultBlock (readName (w :: ws)) ns, ⟨_, _, .inr rfl⟩, fun g qs rest hr => ?_⟩
    have hs : split (cs!"FAULT_BLOCK" ++ spaced [name]) = cs!"FAULT_BLOCK" :: w :: ws := by rw [split_kw_spaced' (by decide)]; simp; exact hw'
    rw [List.cons_append, List.singleton_append]
    exact .faultBlock rfl hs (hl g) hr

theorem rec_flatten {us : List (Option Str × List Nat)} {lss : List File} {P : Option Str × List Nat → File → Prop} (h : List.Forall₂ P us lss)
    (hP : ∀ u ∈ us, ∀ ls, P u ls → ∃ r, IsLayer r ∧ Rec ls [r]) : ∃ rs, (∀ r ∈ rs, IsLayer r) ∧ Rec lss.flatten rs := by
  induction h with
  | nil => exact ⟨[], by simp, rec_nil⟩
  | @cons u ls us lss h1 _ ih =>
    obtain ⟨r, r1, r2⟩ := hP u List.mem_cons_self ls h1
    obtain ⟨rs, q1, q2⟩ := ih fun u hu => hP u (List.mem_cons_of_mem _ hu)
    exact ⟨r :: rs, List.forall_mem_cons.2 ⟨r1, q1⟩, r2.append q2⟩

theorem rec_layers {m : Model D} {n : Nat} (hn : 1 ≤ n) (hw : n + m.blocks.length ≤ W) (hu : ∀ u ∈ unitsOf m ++ faultBlocksOf m, split (val (nameValue u.1)) ≠ [])
    {ls : File} (h : writeLayers m (blockNumbers n m.blocks) = .ok ls) : ∃ rs, (∀ r ∈ rs, IsLayer r) ∧ Rec ls rs := by
  unfold writeLayers at h
  split at h
  · cases h; exact ⟨[], by simp, rec_nil⟩
  · rename_i hb
    simp only [unitsOf, faultBlocksOf, hb, if_false, Bool.false_eq_true] at hu
    rw [List.forall_mem_append] at hu
    obtain ⟨x, h1, h⟩ := bind_eq_ok.1 h
    obtain ⟨y, h2, h⟩ := bind_eq_ok.1 h
    rw [pure_eq] at h
    rw [← Res.ok.inj h]
    rw [mapM'_iff] at h1 h2
    obtain ⟨r1, p1, q1⟩ := rec_flatten h1 fun u hm ls h => rec_layer (.inl rfl) hn hw (hu.1 u hm) h
    obtain ⟨r2, p2, q2⟩ := rec_flatten h2 fun u hm ls h => rec_layer (.inr rfl) hn hw (hu.2 u hm) h
    exact ⟨r1 ++ r2, List.forall_mem_append.2 ⟨p1, p2⟩, q1.append q2⟩

/-! ## Fine records -/

theorem fine_append {a b : List Record} : ∀ {before : List Record}, FineFrom before (a ++ b) ↔ FineFrom before a ∧ FineFrom (before ++ a) b := by
  induction a with
  | nil => intro before; simp [FineFrom]
  | cons r a ih =>
    intro before
    rw [List.cons_append, FineFrom, FineFrom, ih, and_assoc]
    simp

theorem fine_plain {rs : List Record} (h : ∀ r ∈ rs, ∀ b, Fine b r) : ∀ before, FineFrom before rs := by
  induction rs with
  | nil => intro; trivial
  | cons r rs ih => intro before; exact ⟨h r List.mem_cons_self before, ih (fun r hr => h r (List.mem_cons_of_mem _ hr)) _⟩

theorem fine_faces {fs : List (Str × Str)} : ∀ {before : List Record}, (∀ x ∈ fs, x.2 ∈ names before) → FineFrom before (fs.map fun x => .tface x.1 x.2) := by
  induction fs with
  | nil => intro _ _; trivial
  | cons x fs ih =>
    intro before h
    refine ⟨h x List.mem_cons_self, ih fun y hy => ?_⟩
    rw [names_append]
    exact List.mem_append_left _ (h y (List.mem_cons_of_mem _ hy))

/-- A block has two surfaces, where an internal one counts twice; those named as the universe need not. -/
def Bounded (b : Block) : Prop := readAs (componentName b.name) ≠ cs!"Universe" → 2 ≤ b.boundaries.length + 2 * b.internals.length

theorem fine_blocks {comps : List (Nat × Nat)} {s : Nat} {bs : List Block} {rs : List Record} (h : List.Forall₂ (BlockRec comps s) bs rs) : ∀ {before : List Record}, (faces before).length = s →
    (FineFrom before rs ↔ ∀ b ∈ bs, Bounded b) := by
  induction h with
  | nil => intro before _; simp [FineFrom]
  | @cons b r bs rs h1 _ ih =>
    intro before hb
    obtain ⟨ns, n1, _, n2, rfl⟩ := h1
    replace n1 : ns.length = b.boundaries.length + 2 * b.internals.length := by
      rw [← listedIn_length, ← List.length_map (f := MlOutcomes.place), n1, List.length_map]
    rw [FineFrom, List.forall_mem_cons]
    have e : ∀ n : Str, faces (before ++ [if n = cs!"Universe" then .outside ns else .block n ns]) = faces before := by
      intro n
      rw [faces_append]
      split <;> simp [faces]
    rw [ih (by rw [e]; exact hb)]
    refine and_congr ?_ Iff.rfl
    unfold Bounded
    by_cases hu : readAs (componentName b.name) = cs!"Universe"
    · rw [if_pos hu]
      simp only [Fine, hb]
      exact ⟨fun _ h => absurd hu h, fun _ => n2⟩
    · rw [if_neg hu]
      simp only [Fine, hb, n1]
      exact ⟨fun h _ => h.1, fun h => ⟨h hu, n2⟩⟩

theorem block_quiet {comps : List (Nat × Nat)} {s : Nat} {bs : List Block} {rs : List Record} (h : List.Forall₂ (BlockRec comps s) bs rs) : names rs = [] ∧ faces rs = [] := by
  induction h with
  | nil => exact ⟨rfl, rfl⟩
  | @cons b r bs rs h1 _ ih =>
    obtain ⟨ns, _, _, _, rfl⟩ := h1
    rw [← List.singleton_append, names_append, faces_append, ih.1, ih.2]
    split <;> exact ⟨rfl, rfl⟩

theorem layer_quiet {rs : List Record} (h : ∀ r ∈ rs, IsLayer r) : names rs = [] ∧ faces rs = [] := by
  induction rs with
  | nil => exact ⟨rfl, rfl⟩
  | cons r rs ih =>
    obtain ⟨n, ns, hr⟩ := h r List.mem_cons_self
    obtain ⟨i1, i2⟩ := ih fun r hr => h r (List.mem_cons_of_mem _ hr)
    rw [← List.singleton_append, names_append, faces_append, i1, i2]
    rcases hr with rfl | rfl <;> exact ⟨rfl, rfl⟩

/-! ## The names have words -/

/-- Every name that is written has a word. -/
structure Words (m : Model D) : Prop where
  groups : ∀ c ∈ collections m, split (val c.2.1) ≠ []
  surfaces : ∀ s ∈ unclassified m, split (componentName s.name) ≠ []
  blocks : ∀ b ∈ m.blocks, split (componentName b.name) ≠ []
  layers : ∀ u ∈ unitsOf m ++ faultBlocksOf m, split (val (nameValue u.1)) ≠ []

/-- The lines that every block and every collection of blocks has. -/
theorem region_line {sides : Sides.AllSides} {comps : List (Nat × Nat)} : ∀ {bs : List Block} {n : Nat} {ls : File}, writeBlocks sides comps n bs = .ok ls →
    ∀ b ∈ bs, ∃ k, (cs!"REGION" ++ spaced [showNat k, componentName b.name]) ∈ ls := by
  intro bs
  induction bs with
  | nil => intro n ls _ b hb; cases hb
  | cons a bs ih =>
    intro n ls h b hb
    rw [writeBlocks] at h
    obtain ⟨x, h1, h⟩ := bind_eq_ok.1 h
    obtain ⟨y, h2, h⟩ := bind_eq_ok.1 h
    rw [pure_eq] at h
    rw [← Res.ok.inj h]
    rcases List.mem_cons.1 hb with rfl | hb
    · obtain ⟨l, rfl, _⟩ := MlNames.region_lines h1
      exact ⟨n, List.mem_append_left _ List.mem_cons_self⟩
    · obtain ⟨k, hk⟩ := ih h2 b hb
      exact ⟨k, List.mem_append_right _ hk⟩

theorem layer_line {m : Model D} {numbers : List (Nat × Nat)} {ls : File} (h : writeLayers m numbers = .ok ls) : ∀ u ∈ unitsOf m ++ faultBlocksOf m,
    (cs!"LAYER" ++ spaced [val (nameValue u.1)]) ∈ ls ∨ (cs!"FAULT_BLOCK" ++ spaced [val (nameValue u.1)]) ∈ ls := by
  intro u hu
  unfold writeLayers at h
  split at h
  · rename_i hb
    simp [unitsOf, faultBlocksOf, hb] at hu
  · rename_i hb
    simp only [unitsOf, faultBlocksOf, hb, if_false, Bool.false_eq_true] at hu
    obtain ⟨x, h1, h⟩ := bind_eq_ok.1 h
    obtain ⟨y, h2, h⟩ := bind_eq_ok.1 h
    rw [pure_eq] at h
    rw [← Res.ok.inj h]
    rw [mapM'_iff] at h1 h2
    have find : ∀ {P : Option Str × List Nat → File → Prop} {us : List (Option Str × List Nat)} {lss : List File}, List.Forall₂ P us lss → u ∈ us → ∃ l ∈ lss, P u l := by
      intro P us lss h hm
      induction h with
      | nil => cases hm
      | cons h1 _ ih =>
        rcases List.mem_cons.1 hm with rfl | hm
        · exact ⟨_, List.mem_cons_self, h1⟩
        · obtain ⟨l, hl, hp⟩ := ih hm
          exact ⟨l, List.mem_cons_of_mem _ hl, hp⟩
    rcases List.mem_append.1 hu with hu | hu
    · obtain ⟨l, hl, e⟩ := find h1 hu
      obtain ⟨name, list, hn, rfl, _⟩ := MlNames.layer_lines e
      refine .inl (List.mem_append_left _ (List.mem_flatten.2 ⟨_, hl, ?_⟩))
      rw [hn]; exact List.mem_cons_self
    · obtain ⟨l, hl, e⟩ := find h2 hu
      obtain ⟨name, list, hn, rfl, _⟩ := MlNames.layer_lines e
      refine .inr (List.mem_append_right _ (List.mem_flatten.2 ⟨_, hl, ?_⟩))
      rw [hn]; exact List.mem_cons_self

/-- The text of a saved file. -/
structure Text (m : Model D) (sides : Sides.AllSides) (f : File) where
  ns : List Str
  named : List.Forall₂ (fun (c : Group) n => c.2.1 = .ok n) (collections m) ns
  st : Faces
  tfaces : writeTfaces m = .ok st
  uni : File
  outside : writeUniverse m sides st.comps st.next = .ok uni
  regions : File
  blocks : writeBlocks sides st.comps (st.next + 1) m.blocks = .ok regions
  lay : File
  layers : writeLayers m (blockNumbers (st.next + 1) m.blocks) = .ok lay
  surfs : File
  objects : writeModelSurfaces m = .ok surfs
  text : f = cs!"GOCAD Model3d 1" :: (writeHeader m.name ++ (writeCrs {} ++
    (((ns ++ (unclassified m).map fun s => componentName s.name).map (fun n => cs!"TSURF" ++ spaced [n]) ++ st.out ++ uni ++ regions ++ lay) ++ cs!"END" :: surfs)))

/-- The lines of the records. -/
def Text.body {m : Model D} {sides : Sides.AllSides} {f : File} (t : Text m sides f) : File :=
  (t.ns ++ (unclassified m).map fun s => componentName s.name).map (fun n => cs!"TSURF" ++ spaced [n]) ++ t.st.out ++ t.uni ++ t.regions ++ t.lay

theorem text_of {m : Model D} {sides : Sides.AllSides} {f : File} (hf : saveMl m sides = .ok f) : Nonempty (Text m sides f) := by
  unfold saveMl at hf
  obtain ⟨comps, h1, hf⟩ := bind_eq_ok.1 hf
  obtain ⟨surfs, h2, hf⟩ := bind_eq_ok.1 hf
  rw [pure_eq] at hf
  unfold writeComponents at h1
  obtain ⟨tsurfs, g1, h1⟩ := bind_eq_ok.1 h1
  obtain ⟨st, g2, h1⟩ := bind_eq_ok.1 h1
  obtain ⟨uni, g3, h1⟩ := bind_eq_ok.1 h1
  obtain ⟨regions, g4, h1⟩ := bind_eq_ok.1 h1
  obtain ⟨lay, g5, h1⟩ := bind_eq_ok.1 h1
  rw [pure_eq] at h1
  obtain ⟨ns, n1, n2⟩ := tsurfs_names g1
  refine ⟨⟨ns, n1, st, g2, uni, g3, regions, g4, lay, g5, surfs, h2, ?_⟩⟩
  rw [← Res.ok.inj hf, ← Res.ok.inj h1, n2]
  simp

theorem parts_records {m : Model D} {sides : Sides.AllSides} {f : File} (t : Text m sides f) (P : Parts D f) : Records (t.body ++ cs!"END" :: t.surfs) P.records P.objects := by
  have e1 : (P.title, P.body) = (cs!"GOCAD Model3d 1", writeHeader m.name ++ (writeCrs {} ++ (t.body ++ cs!"END" :: t.surfs))) := by
    have := goto_iff.2 P.titled
    have h0 : gotoKeyword cs!"GOCAD Model3d" f = .ok (cs!"GOCAD Model3d 1", writeHeader m.name ++ (writeCrs {} ++ (t.body ++ cs!"END" :: t.surfs))) := by
      conv => lhs; rw [t.text, gotoKeyword_here (by rfl)]
      rfl
    exact Res.ok.inj (this.symm.trans h0)
  have e2 := P.header
  rw [(Prod.mk.inj e1).2, readHeader_writeHeader] at e2
  have e3 := P.system
  rw [← (Prod.mk.inj (Res.ok.inj e2)).2, readCrs_default] at e3
  have hrec := P.recordsRead
  rwa [← (Prod.mk.inj (Res.ok.inj e3)).2] at hrec

theorem body_ends [LawfulNum D] (hp : PlainNumbers D) {m : Model D} {sides : Sides.AllSides} {f : File} (t : Text m sides f) :
    ∀ l ∈ t.body, startsWith l cs!"END" = false := by
  unfold Text.body
  exact (((((part_tsurfs (ns := t.ns ++ (unclassified m).map fun s => componentName s.name)).append (part_tfaces hp t.tfaces)).append
    (part_silent (silent_universe t.outside))).append (part_silent (silent_blocks t.blocks))).append (part_silent (silent_layers t.layers))).ends

theorem val_names {cs : List Group} {ns : List Str} (h : List.Forall₂ (fun (c : Group) n => c.2.1 = .ok n) cs ns) : ns = cs.map fun c => val c.2.1 := by
  induction h with
  | nil => rfl
  | cons h1 _ ih => rw [List.map_cons, ← ih, h1]; rfl

theorem words_needed [LawfulNum D] (hp : PlainNumbers D) {m : Model D} {sides : Sides.AllSides} {f : File} (t : Text m sides f) (P : Parts D f) : Words m := by
  have hr := parts_records t P
  obtain ⟨pre, e, he, hend, a⟩ := records_announced hr
  obtain ⟨pre', e', he', hend', a'⟩ := MlNames.records_names hr
  have h1 := MlNames.prefix_unique he.symm a.ends (body_ends hp t) hend rfl
  have h2 := MlNames.prefix_unique he'.symm a'.ends (body_ends hp t) hend' rfl
  have c1 := a.complete
  have c2 := a'.complete
  rw [h1] at c1
  rw [h2] at c2
  have tsurf : ∀ n, (cs!"TSURF" ++ spaced [n]) ∈ t.body → split n ≠ [] := by
    intro n hn h0
    have hs : split (cs!"TSURF" ++ spaced [n]) = [cs!"TSURF"] := by rw [split_kw_spaced' (by decide)]; simp [h0]
    have := (c1 _ hn).1 (by rw [hs]; rfl)
    rw [hs] at this
    simp at this
  have inNames : ∀ n ∈ t.ns ++ (unclassified m).map fun s => componentName s.name, (cs!"TSURF" ++ spaced [n]) ∈ t.body := by
    intro n hn
    unfold Text.body
    exact List.mem_append_left _ (List.mem_append_left _ (List.mem_append_left _ (List.mem_append_left _ (List.mem_map.2 ⟨n, hn, rfl⟩))))
  refine ⟨fun c hc => tsurf _ (inNames _ (List.mem_append_left _ ?_)), fun s hs => tsurf _ (inNames _ (List.mem_append_right _ (List.mem_map.2 ⟨s, hs, rfl⟩))), ?_, ?_⟩
  · rw [val_names t.named]
    exact List.mem_map.2 ⟨c, hc, rfl⟩
  · intro b hb h0
    obtain ⟨k, hk⟩ := region_line t.blocks b hb
    have := (c2 _ (by unfold Text.body; exact List.mem_append_left _ (List.mem_append_right _ hk))).1 (by rw [split_region]; rfl)
    rw [split_region, h0] at this
    simp at this
  · intro u hu h0
    rcases layer_line t.layers u hu with hl | hl
    · have hs : split (cs!"LAYER" ++ spaced [val (nameValue u.1)]) = [cs!"LAYER"] := by rw [split_kw_spaced' (by decide)]; simp [h0]
      have := (c2 _ (by unfold Text.body; exact List.mem_append_right _ hl)).2.1 (by rw [hs]; rfl)
      rw [hs] at this
      simp at this
    · have hs : split (cs!"FAULT_BLOCK" ++ spaced [val (nameValue u.1)]) = [cs!"FAULT_BLOCK"] := by rw [split_kw_spaced' (by decide)]; simp [h0]
      have := (c2 _ (by unfold Text.body; exact List.mem_append_right _ hl)).2.2 (by rw [hs]; rfl)
      rw [hs] at this
      simp at this

/-- How many surfaces are written. -/
def nbFaces (m : Model D) : Nat := (expand (rows m)).length

/-- The records of a saved file whose names have words. -/
theorem records_written [LawfulNum D] (hp : PlainNumbers D) {m : Model D} {sides : Sides.AllSides} {f : File} (t : Text m sides f) (hw : Words m)
    (size : nbFaces m + 2 + m.blocks.length < 2147483648) :
    ∃ R, Records (t.body ++ cs!"END" :: t.surfs) R t.surfs ∧ names R = rowNames (rows m) ∧ faces R = expand (rows m) ∧
      (FineFrom [] R ↔ ∀ b ∈ m.blocks, Bounded b) ∧ ∃ rs, List.Forall₂ (BlockRec t.st.comps (nbFaces m)) m.blocks rs ∧ MlOutcomes.blocksOf R = MlOutcomes.blocksOf rs := by
  obtain ⟨ls, o, r, n, i⟩ : Step {} t.st (expand (rows m)) := by
    have h := t.tfaces
    unfold writeTfaces at h
    obtain ⟨s1, h1, h⟩ := bind_eq_ok.1 h
    have a := step_groups hp (collections m) (seen := []) (kinds_tok m) hw.groups (fun i => by simp [Written]) h1
    have b := step_loose hp (unclassified m) hw.surfaces h
    rw [rows, expand_append]
    exact a.trans b
  have hnum : Nums t.st := i ⟨Nat.le_refl _, by simp⟩
  have hnext : t.st.next = 1 + nbFaces m := n
  have hlim : t.st.next ≤ 2147483648 := by rw [hnext]; omega
  have o' : t.st.out = ls := by rw [o]; rfl
  rw [← o'] at r
  have hns : ∀ n ∈ t.ns ++ (unclassified m).map fun s => componentName s.name, split n ≠ [] := by
    rw [val_names t.named, List.forall_mem_append]
    constructor
    · intro n hn
      obtain ⟨c, hc, rfl⟩ := List.mem_map.1 hn
      exact hw.groups c hc
    · intro n hn
      obtain ⟨s, hs, rfl⟩ := List.mem_map.1 hn
      exact hw.surfaces s hs
  obtain ⟨us, u1, u2⟩ := rec_universe hnum hlim t.outside
  obtain ⟨bs, b1, b2⟩ := rec_blocks hnum hlim hw.blocks t.blocks
  obtain ⟨ys, y1, y2⟩ := rec_layers (m := m) (n := t.st.next + 1) (by omega) (by rw [hnext]; unfold W; omega) hw.layers t.layers
  have hW : t.st.next - 1 = nbFaces m := by omega
  rw [hW] at u1 b1
  have all := ((((rec_tsurfs hns).append r).append u2).append b2).append y2 _ _ _ (Records.done (l := cs!"END") (rest := t.surfs) rfl)
  have nT : names ((t.ns ++ (unclassified m).map fun s => componentName s.name).map fun n => Record.tsurf (readAs n)) = rowNames (rows m) := by
    have h1 : ∀ l : List Str, names (l.map fun n => Record.tsurf (readAs n)) = l.map readAs := by
      intro l
      induction l with
      | nil => rfl
      | cons a l ih => rw [List.map_cons, ← List.singleton_append, names_append, ih]; rfl
    rw [h1, rowNames, rows, List.map_append, List.map_append, rowsFrom_names [] t.named]
    simp [looseRows, Function.comp_def]
  have fT : faces ((t.ns ++ (unclassified m).map fun s => componentName s.name).map fun n => Record.tsurf (readAs n)) = [] := by
    generalize (t.ns ++ (unclassified m).map fun s => componentName s.name) = l
    induction l with
    | nil => rfl
    | cons a l ih => rw [List.map_cons, ← List.singleton_append, faces_append, ih]; rfl
  have nF : ∀ fs : List (Str × Str), names (fs.map fun x => Record.tface x.1 x.2) = [] ∧ faces (fs.map fun x => Record.tface x.1 x.2) = fs := by
    intro fs
    induction fs with
    | nil => exact ⟨rfl, rfl⟩
    | cons a l ih => rw [List.map_cons, ← List.singleton_append, names_append, faces_append, ih.1, ih.2]; exact ⟨rfl, rfl⟩
  obtain ⟨nF1, nF2⟩ := nF (expand (rows m))
  obtain ⟨nB1, nB2⟩ := block_quiet b1
  obtain ⟨nY1, nY2⟩ := layer_quiet y1
  have nU : names [Record.outside us] = [] ∧ faces [Record.outside us] = [] := ⟨rfl, rfl⟩
  refine ⟨_, all, ?_, ?_, ?_, bs, b1, ?_⟩
  · simp only [names_append, nT, nF1, nB1, nY1, nU.1, List.append_nil]
  · simp only [faces_append, fT, nF2, nB2, nY2, nU.2, List.append_nil, List.nil_append]
  · rw [List.append_nil, fine_append, fine_append, fine_append, fine_append]
    simp only [List.nil_append]
    have f1 := fine_plain (rs := (t.ns ++ (unclassified m).map fun s => componentName s.name).map fun n => Record.tsurf (readAs n)) (by
      intro r hr b
      obtain ⟨n, _, rfl⟩ := List.mem_map.1 hr
      trivial) []
    have f2 := fine_faces (fs := expand (rows m)) (before := (t.ns ++ (unclassified m).map fun s => componentName s.name).map fun n => Record.tsurf (readAs n)) (by
      intro x hx
      rw [nT]
      by_contra h
      exact expand_names h x hx rfl)
    have fL : (faces (((t.ns ++ (unclassified m).map fun s => componentName s.name).map fun n => Record.tsurf (readAs n)) ++
        (expand (rows m)).map fun x => Record.tface x.1 x.2)).length = nbFaces m := by
      rw [faces_append, fT, nF2]; rfl
    have f3 : FineFrom (((t.ns ++ (unclassified m).map fun s => componentName s.name).map fun n => Record.tsurf (readAs n)) ++
        (expand (rows m)).map fun x => Record.tface x.1 x.2) [.outside us] := by
      refine ⟨?_, trivial⟩
      simp only [Fine, fL]
      exact u1
    have f4 := fine_blocks b1 (before := ((t.ns ++ (unclassified m).map fun s => componentName s.name).map fun n => Record.tsurf (readAs n)) ++
        ((expand (rows m)).map fun x => Record.tface x.1 x.2) ++ [.outside us]) (by
      rw [faces_append, List.length_append, fL]; rfl)
    have f5 := fine_plain (rs := ys) (by
      intro r hr b
      obtain ⟨n, ns, rfl | rfl⟩ := y1 r hr <;> trivial)
    rw [f4]
    exact ⟨fun h => h.1.2, fun h => ⟨⟨⟨⟨f1, f2⟩, f3⟩, h⟩, f5 _⟩⟩
  · have z1 : MlOutcomes.blocksOf ((t.ns ++ (unclassified m).map fun s => componentName s.name).map fun n => Record.tsurf (readAs n)) = [] := by
      unfold MlOutcomes.blocksOf
      rw [List.filterMap_map]
      exact List.filterMap_eq_nil_iff.2 fun _ _ => rfl
    have z2 : MlOutcomes.blocksOf ((expand (rows m)).map fun x => Record.tface x.1 x.2) = [] := by
      unfold MlOutcomes.blocksOf
      rw [List.filterMap_map]
      exact List.filterMap_eq_nil_iff.2 fun _ _ => rfl
    have z3 : MlOutcomes.blocksOf ys = [] := by
      refine List.filterMap_eq_nil_iff.2 fun r hr => ?_
      obtain ⟨n, ns, rfl | rfl⟩ := y1 r hr <;> rfl
    have z4 : ∀ a b, MlOutcomes.blocksOf (a ++ b) = MlOutcomes.blocksOf a ++ MlOutcomes.blocksOf b := fun _ _ => List.filterMap_append
    rw [List.append_nil, z4, z4, z4, z4, z1, z2, z3]
    simp [MlOutcomes.blocksOf]

/-! ## The meshes -/

theorem faces_some {ts : TSurf D} {rs' : List Nat} : ∀ {rs : List Nat} {k : Nat} {xs}, buildFaces ts k (rs ++ rs') = .ok xs → ∃ ys, buildFaces ts k rs = .ok ys := by
  intro rs
  induction rs with
  | nil => intro k xs _; exact ⟨[], rfl⟩
  | cons r rs ih =>
    intro k xs h
    rw [List.cons_append, buildFaces] at h
    obtain ⟨f, h1, h⟩ := bind_eq_ok.1 h
    obtain ⟨y, h2, h⟩ := bind_eq_ok.1 h
    obtain ⟨ys, hy⟩ := ih h2
    exact ⟨f :: ys, by rw [buildFaces, h1, ok_bind, hy, ok_bind]; rfl⟩

/-- An object with at least as many surfaces as a group has. -/
def Holds (file : File) (is : List Nat) : Prop :=
  ∃ (kind name : Str) (ss : List (Ml.Surface D)), file = writeTSurf kind name ss ∧ ss ≠ [] ∧ (∀ s ∈ ss, GoodSurface s) ∧ 1 + nbPoints ss ≤ W ∧ is.length ≤ ss.length

theorem meshes_read [LawfulNum D] {files : List File} {idss : List (List Nat)} (h : List.Forall₂ (Holds (D := D)) files idss) :
    ∃ xs : List (Nat × List (Pt D) × List Tri), Meshes idss files.flatten xs := by
  suffices ∃ xs : List (Nat × List (Pt D) × List Tri), readSurfaces (idss.map fun is => ⟨[], [], is⟩) files.flatten = .ok xs by
    obtain ⟨xs, hx⟩ := this
    refine ⟨xs, ?_⟩
    have := meshes_iff.1 hx
    rw [List.map_map] at this
    have e : (RTsurf.tfaces ∘ fun is => (⟨[], [], is⟩ : RTsurf)) = id := rfl
    rwa [e, List.map_id] at this
  induction h with
  | nil => exact ⟨[], rfl⟩
  | @cons file is files idss h1 _ ih =>
    obtain ⟨ys, hy⟩ := ih
    obtain ⟨kind, name, ss, rfl, h2, h3, h4, h5⟩ := h1
    have hb := buildFaces_dataOf (readName (split name)) ss h3 h4 ss [] (is ++ List.replicate (ss.length - is.length) 0) rfl (by simp; omega)
    rw [List.length_nil] at hb
    obtain ⟨xs, hx⟩ := faces_some hb
    refine ⟨xs ++ ys, ?_⟩
    rw [List.map_cons, List.flatten_cons, readSurfaces, readTSurf_named kind name h2 h3 h4]
    simp only [Res.ok_bind]
    rw [hx, hy]
    rfl

theorem counts_le : ∀ (cs : List Group) (seen : List Nat), List.Forall₂ (fun (c : Group) (r : Row) => r.2.2 ≤ c.2.2.length) cs (rowsFrom seen cs)
  | [], _ => .nil
  | _ :: cs, _ => .cons (fresh_le _ _) (counts_le cs _)

theorem placed_ids {rs : List Row} (hd : (rowNames rs).Nodup) (h0 : ∀ r ∈ rs, r.2.2 ≠ 0) :
    (rowNames rs).map (ids (expand rs)) = (placed 0 rs).map fun r => r.2.2 := by
  have := groups_placed (fun _ _ is => [is]) hd h0
  rw [MlNames.flatMap_one, MlNames.flatMap_one] at this
  exact this

theorem placed_lengths {rs : List Row} : ∀ s, List.Forall₂ (fun (r : Row) (is : List Nat) => is.length = r.2.2) rs ((placed s rs).map fun r => r.2.2) := by
  induction rs with
  | nil => intro s; exact .nil
  | cons r rs ih => intro s; exact .cons (by simp) (ih _)

theorem forall₂_comp {A B C : Type} {R : A → B → Prop} {S : B → C → Prop} {T : A → C → Prop} (hT : ∀ a b c, R a b → S b c → T a c) :
    ∀ {as : List A} {bs : List B} {cs : List C}, List.Forall₂ R as bs → List.Forall₂ S bs cs → List.Forall₂ T as cs := by
  intro as bs cs h h'
  induction h generalizing cs with
  | nil => cases h'; exact .nil
  | cons h1 _ ih =>
    cases h' with
    | cons h2 h3 => exact .cons (hT _ _ _ h1 h2) (ih h3)

theorem forall₂_swap {A B : Type} {R : A → B → Prop} {as : List A} {bs : List B} (h : List.Forall₂ R as bs) : List.Forall₂ (fun b a => R a b) bs as := by
  induction h with
  | nil => exact .nil
  | cons h1 _ ih => exact .cons h1 ih

theorem forall₂_strengthen {A B : Type} {R : A → B → Prop} {P : B → Prop} {as : List A} {bs : List B} (h : List.Forall₂ R as bs) (hp : ∀ b ∈ bs, P b) :
    List.Forall₂ (fun a b => R a b ∧ P b) as bs := by
  induction h with
  | nil => exact .nil
  | cons h1 _ ih => exact .cons ⟨h1, hp _ List.mem_cons_self⟩ (ih fun b hb => hp b (List.mem_cons_of_mem _ hb))

/-- Meshes that `.ml` files can describe: every triangle has vertices of its surface, and the vertices of each object have numbers. -/
structure Sane (m : Model D) : Prop where
  meshes : ∀ s ∈ m.surfaces, GoodSurface s
  points : ∀ c ∈ collections m, ∀ ss, Res.mapM' (surfaceOf m) c.2.2 = .ok ss → 1 + nbPoints ss ≤ W
  loose : ∀ s ∈ unclassified m, 1 + s.points.length ≤ W
  size : nbFaces m + 2 + m.blocks.length < 2147483648

theorem meshes_written [LawfulNum D] {m : Model D} {sides : Sides.AllSides} {f : File} (t : Text m sides f) (g : Sane m)
    (hd : (rowNames (rows m)).Nodup) (h0 : ∀ r ∈ rows m, r.2.2 ≠ 0) :
    ∃ xs : List (Nat × List (Pt D) × List Tri), Meshes ((rowNames (rows m)).map (ids (expand (rows m)))) t.surfs xs := by
  have h := t.objects
  unfold writeModelSurfaces at h
  obtain ⟨colls, h1, h⟩ := bind_eq_ok.1 h
  rw [pure_eq] at h
  rw [← Res.ok.inj h, ← List.flatten_append, placed_ids hd h0]
  refine meshes_read (forall₂_comp (R := fun file (r : Row) => ∃ (kind name : Str) (ss : List (Ml.Surface D)), file = writeTSurf kind name ss ∧ ss ≠ [] ∧
    (∀ s ∈ ss, GoodSurface s) ∧ 1 + nbPoints ss ≤ W ∧ r.2.2 ≤ ss.length) (S := fun r is => is.length = r.2.2) ?_ ?_ (placed_lengths 0))
  · rintro file r is ⟨kind, name, ss, e, h2, h3, h4, h5⟩ hl
    exact ⟨kind, name, ss, e, h2, h3, h4, by omega⟩
  · rw [mapM'_iff] at h1
    have hrows : ∀ r ∈ rowsFrom [] (collections m), r.2.2 ≠ 0 := fun r hr => h0 r (List.mem_append_left _ hr)
    have c := forall₂_strengthen (counts_le (collections m) []) hrows
    have h1' := forall₂_swap h1
    have mem : ∀ {i : Nat} {s : Ml.Surface D}, surfaceOf m i = .ok s → s ∈ m.surfaces := by
      intro i s hs
      unfold surfaceOf at hs
      cases hf : m.surfaces.find? (fun s => s.id = i) with
      | none => rw [hf] at hs; cases hs
      | some x =>
        rw [hf] at hs
        rw [← Res.ok.inj hs]
        exact List.mem_of_find?_eq_some hf
    refine forall₂_append ?_ ?_
    · have hc : ∀ c ∈ collections m, c ∈ collections m := fun _ h => h
      refine forall₂_comp (fun file c r hR hS => ?_) (forall₂_strengthen h1' hc) c
      obtain ⟨hR, hcm⟩ := hR
      obtain ⟨name, e1, hR⟩ := bind_eq_ok.1 hR
      obtain ⟨kind, e2, hR⟩ := bind_eq_ok.1 hR
      obtain ⟨ss, e3, hR⟩ := bind_eq_ok.1 hR
      rw [pure_eq] at hR
      have hl : ss.length = c.2.2.length := (mapM'_iff.1 e3).length_eq.symm
      refine ⟨kind, name, ss, (Res.ok.inj hR).symm, ?_, ?_, g.points c hcm ss e3, by rw [hl]; exact hS.1⟩
      · intro e
        rw [e] at hl
        simp only [List.length_nil] at hl
        have := hS.1
        have := hS.2
        omega
      · intro s hs
        obtain ⟨i, _, e⟩ := mapM_mem e3 hs
        exact g.meshes s (mem e)
    · unfold looseRows
      refine forall₂_map fun s hs => ?_
      refine ⟨cs!"boundary", componentName s.name, [s], rfl, by simp, ?_, ?_, Nat.le_refl _⟩
      · intro x hx
        rw [List.mem_singleton.1 hx]
        exact g.meshes s (List.mem_of_mem_filter hs)
      · have := g.loose s hs
        simpa [nbPoints] using this

/-! ## The models that load -/

/-- A collection has a surface that no collection before it has. -/
def Own (m : Model D) : Prop := ∀ pre c post, collections m = pre ++ c :: post → ∃ i ∈ c.2.2, ∀ d ∈ pre, i ∉ d.2.2

theorem fresh_nil {is : List Nat} : ∀ {seen : List Nat}, fresh seen is = [] ↔ ∀ i ∈ is, i ∈ seen := by
  induction is with
  | nil => intro seen; simp [fresh]
  | cons i is ih =>
    intro seen
    rw [fresh]
    by_cases h : i ∈ seen
    · rw [if_pos h, ih, List.forall_mem_cons]
      exact ⟨fun h' => ⟨h, h'⟩, fun h' => h'.2⟩
    · rw [if_neg h]
      constructor
      · intro h'; cases h'
      · intro h'; exact absurd (h' i List.mem_cons_self) h

theorem counts_own : ∀ (cs : List Group) (seen : List Nat), (∀ r ∈ rowsFrom seen cs, r.2.2 ≠ 0) ↔
    ∀ pre c post, cs = pre ++ c :: post → ∃ i ∈ c.2.2, i ∉ seen ∧ ∀ d ∈ pre, i ∉ d.2.2 := by
  intro cs
  induction cs with
  | nil => intro seen; constructor
           · intro _ pre c post e; simp at e
           · intro _ r hr; cases hr
  | cons c cs ih =>
    intro seen
    rw [rowsFrom, List.forall_mem_cons, ih]
    have hc : (fresh seen c.2.2).length ≠ 0 ↔ ∃ i ∈ c.2.2, i ∉ seen := by
      rw [ne_eq, List.length_eq_zero_iff, fresh_nil]
      simp only [not_forall]
      constructor
      · rintro ⟨i, hi, h⟩; exact ⟨i, hi, h⟩
      · rintro ⟨i, hi, h⟩; exact ⟨i, hi, h⟩
    dsimp only
    rw [hc]
    constructor
    · rintro ⟨⟨i, hi, hn⟩, h⟩ pre d post e
      cases pre with
      | nil =>
        rw [List.nil_append, List.cons.injEq] at e
        rw [← e.1]
        exact ⟨i, hi, hn, by simp⟩
      | cons p pre =>
        rw [List.cons_append, List.cons.injEq] at e
        obtain ⟨j, hj, h1, h2⟩ := h pre d post e.2
        rw [List.mem_append, not_or] at h1
        refine ⟨j, hj, h1.1, List.forall_mem_cons.2 ⟨?_, h2⟩⟩
        rw [← e.1]; exact h1.2
    · intro h
      refine ⟨?_, ?_⟩
      · obtain ⟨i, hi, hn, _⟩ := h [] c cs rfl
        exact ⟨i, hi, hn⟩
      · intro pre d post e
        obtain ⟨j, hj, h1, h2⟩ := h (c :: pre) d post (by rw [e]; rfl)
        rw [List.forall_mem_cons] at h2
        exact ⟨j, hj, by rw [List.mem_append, not_or]; exact ⟨h1, h2.1⟩, h2.2⟩

theorem counts_rows (m : Model D) : (∀ r ∈ rows m, r.2.2 ≠ 0) ↔ Own m := by
  unfold rows Own
  rw [List.forall_mem_append, counts_own]
  constructor
  · rintro ⟨h, _⟩ pre c post e
    obtain ⟨i, hi, _, h'⟩ := h pre c post e
    exact ⟨i, hi, h'⟩
  · intro h
    refine ⟨fun pre c post e => ?_, ?_⟩
    · obtain ⟨i, hi, h'⟩ := h pre c post e
      exact ⟨i, hi, by simp, h'⟩
    · intro r hr
      obtain ⟨s, _, rfl⟩ := List.mem_map.1 hr
      exact Nat.one_ne_zero

/-- The names of the collections and of the surfaces in none differ, as they are read. -/
def Distinct (m : Model D) : Prop := ((collections m).map (fun c => readAs (val c.2.1)) ++ (unclassified m).map fun s => readAs (componentName s.name)).Nodup

theorem names_rows (m : Model D) : rowNames (rows m) = (collections m).map (fun c => readAs (val c.2.1)) ++ (unclassified m).map fun s => readAs (componentName s.name) := by
  rw [rowNames, rows, List.map_append, rows_names, looseRows, List.map_map]
  rfl

/-- The kinds of a model that can be saved are known. -/
theorem kinds_known {m : Model D} {sides : Sides.AllSides} {f : File} (t : Text m sides f) : ∀ r ∈ rows m, MlOutcomes.Known r.1 := by
  have h := t.objects
  unfold writeModelSurfaces at h
  obtain ⟨colls, h1, _⟩ := bind_eq_ok.1 h
  rw [mapM'_iff] at h1
  have ok : ∀ c ∈ collections m, ∃ k, c.1 = .ok k := by
    intro c hc
    obtain ⟨i, hi, rfl⟩ := List.getElem_of_mem hc
    have := h1.get hi (by rw [← h1.length_eq]; exact hi)
    obtain ⟨name, e1, hR⟩ := bind_eq_ok.1 this
    obtain ⟨kind, e2, hR⟩ := bind_eq_ok.1 hR
    exact ⟨kind, e2⟩
  intro r hr
  rcases List.mem_append.1 hr with hr | hr
  · obtain ⟨c, hc, e⟩ := mem_rowsFrom hr
    obtain ⟨k, hk⟩ := ok c hc
    rw [e]
    unfold collections at hc
    rcases List.mem_append.1 hc with hc | hc
    · rcases List.mem_append.1 hc with hc | hc
      · obtain ⟨b, _, rfl⟩ := List.mem_map.1 hc
        show cs!"boundary" ∈ _
        decide
      · obtain ⟨f, _, rfl⟩ := List.mem_map.1 hc
        show faultText f.1 ∈ _
        cases f.1 <;> decide
    · obtain ⟨h, _, rfl⟩ := List.mem_map.1 hc
      dsimp only at hk ⊢
      unfold MlOutcomes.Known
      cases e : h.1 <;> rw [e] at hk <;> cases hk
      all_goals decide
  · rw [loose_kind hr]
    unfold MlOutcomes.Known; decide

/-- **Which saved models load**: a saved model with sane meshes loads exactly when every name that is written has a word, the names of its collections
and of its surfaces in none differ as they are read, every collection has a surface that no collection before it has, and every block not named as the
universe has two surfaces, where an internal surface counts twice. -/
theorem saved_loads_iff [LawfulNum D] (hp : PlainNumbers D) {m : Model D} (g : Sane m) {sides : Sides.AllSides} {f : File} (hf : saveMl m sides = .ok f) :
    (∃ L : Loaded D, loadMl f = .ok L) ↔ Words m ∧ Distinct m ∧ Own m ∧ ∀ b ∈ m.blocks, Bounded b := by
  obtain ⟨t⟩ := text_of hf
  constructor
  · rintro ⟨L, hL⟩
    obtain ⟨P, hP⟩ := (ml_loads_iff f L).1 hL
    have hw := words_needed hp t P
    obtain ⟨R, r1, r2, r3, r4, _⟩ := records_written hp t hw g.size
    obtain ⟨e, _⟩ := records_unique (parts_records t P) r1
    have hfine := P.fine
    rw [e, r4] at hfine
    refine ⟨hw, ?_, (counts_rows m).1 fun r hr => ((collections_back hp hf hL).1 r hr).2, hfine⟩
    have := P.distinct
    rw [e, r2, names_rows] at this
    exact this
  · rintro ⟨hw, hd, ho, hb⟩
    obtain ⟨R, r1, r2, r3, r4, _⟩ := records_written hp t hw g.size
    have h0 := (counts_rows m).2 ho
    unfold Distinct at hd
    rw [← names_rows] at hd
    have titled : First cs!"GOCAD Model3d" f cs!"GOCAD Model3d 1" (writeHeader m.name ++ (writeCrs {} ++ (t.body ++ cs!"END" :: t.surfs))) := by
      rw [← goto_iff]
      conv => lhs; rw [t.text, gotoKeyword_here (by rfl)]
      rfl
    have known : ∀ n ∈ names R, MlOutcomes.Known (feature (faces R) n) := by
      intro n hn
      rw [r2] at hn
      obtain ⟨r, hr, rfl⟩ := List.mem_map.1 hn
      obtain ⟨a, b, e⟩ := List.append_of_mem hr
      have hr' := (row_placed (a := a) (b := b) (r := r) (e ▸ hd)).2
      rw [if_neg (h0 r hr), ← e] at hr'
      rw [r3, hr']
      exact kinds_known t r hr
    let P : Parts D f := {
      title := cs!"GOCAD Model3d 1"
      body := writeHeader m.name ++ (writeCrs {} ++ (t.body ++ cs!"END" :: t.surfs))
      titled := titled
      name := m.name.map fun n => readName (split n)
      afterHeader := writeCrs {} ++ (t.body ++ cs!"END" :: t.surfs)
      header := readHeader_writeHeader _ _
      crs := _
      afterCrs := t.body ++ cs!"END" :: t.surfs
      system := readCrs_default _
      records := R
      objects := t.surfs
      recordsRead := r1
      fine := r4.2 hb
      distinct := by rw [r2]; exact hd
      known := known }
    obtain ⟨xs, hx⟩ := meshes_written t g hd h0
    rw [← r2, ← r3] at hx
    obtain ⟨st, _, ag⟩ := MlOutcomes.records_bwd r1 MlOutcomes.agrees_nil (r4.2 hb)
    rw [List.nil_append] at ag
    exact ⟨⟨_, _, _, _, _, _, _, _, xs⟩, (ml_loads_iff f _).2 ⟨P, rfl, ag.surfaces, rfl, rfl, rfl, ag.blocks, ag.units, ag.faultBlocks, hx⟩⟩

/-- **Blocks bounded by one surface**: no model with sane meshes and a block that one surface bounds, and no internal surface is in, comes back,
unless the block is named as the universe. -/
theorem one_surface_refused [LawfulNum D] (hp : PlainNumbers D) {m : Model D} (g : Sane m) {sides : Sides.AllSides} {f : File} (hf : saveMl m sides = .ok f)
    {b : Block} (hb : b ∈ m.blocks) (hn : readAs (componentName b.name) ≠ cs!"Universe") (h1 : b.boundaries.length = 1) (h2 : b.internals = []) (L : Loaded D) :
    loadMl f ≠ .ok L := by
  intro hL
  have := ((saved_loads_iff hp g hf).1 ⟨L, hL⟩).2.2.2 b hb hn
  rw [h1, h2] at this
  simp at this

/-! ### Instances -/

theorem shared_sane : Sane MlCases.shared where
  meshes := by
    intro s hs
    have : s = MlCases.tri 1 ∨ s = MlCases.tri 2 ∨ s = MlCases.tri 3 := by simpa [MlCases.shared] using hs
    rcases this with rfl | rfl | rfl <;> exact ⟨by decide, by decide, by decide⟩
  points := by
    intro c hc ss h
    have : c = (.ok cs!"boundary", .ok (componentName cs!"A"), [1, 2]) ∨ c = (.ok cs!"boundary", .ok (componentName cs!"B"), [2, 3]) := by
      simpa [collections, MlCases.shared, faultsOf, horizonsOf] using hc
    rcases this with rfl | rfl
    · have e : Res.mapM' (surfaceOf MlCases.shared) [1, 2] = .ok [MlCases.tri 1, MlCases.tri 2] := rfl
      rw [← Res.ok.inj (e.symm.trans h)]
      decide +kernel
    · have e : Res.mapM' (surfaceOf MlCases.shared) [2, 3] = .ok [MlCases.tri 2, MlCases.tri 3] := rfl
      rw [← Res.ok.inj (e.symm.trans h)]
      decide +kernel
  loose := by decide +kernel
  size := by decide +kernel

/-- A model that is not good, since a surface is in two boundaries, but loads. -/
example : Words MlCases.shared ∧ Distinct MlCases.shared ∧ Own MlCases.shared ∧ ∀ b ∈ MlCases.shared.blocks, Bounded b := by
  obtain ⟨L, hL, _⟩ := MlCases.shared_surface
  unfold MlCases.roundTrip at hL
  obtain ⟨f, hf, hL⟩ := bind_eq_ok.1 hL
  exact (saved_loads_iff MlCases.plain_int shared_sane hf).1 ⟨L, hL⟩

/-- A test: a block that one surface bounds. -/
example : ¬Bounded ⟨11, cs!"ball", [1], []⟩ ∧ Bounded ⟨11, cs!"universe", [1, 2], []⟩ := by
  unfold Bounded
  exact ⟨by decide +kernel, by decide +kernel⟩

end Verif.Props.MlLoads
