import Verif.Lemmas.Unfinished
import Verif.Lemmas.GocadCut
import Verif.Lemmas.LsoEnds
import Verif.Props.LsoFile

/-!
# LightSolid files that are cut
-/

set_option linter.unusedSectionVars false

namespace Verif.Props.LsoCut

open Verif Verif.Gocad Verif.Lso Verif.Props.LsoFile Verif.GocadCut Res

variable {D : Type} [Num D]

/-- The lines that open a surface, a face or a block. -/
def opens (l : Str) : Bool := startsWith l cs!"SURFACE" || startsWith l cs!"TFACE" || startsWith l cs!"MODEL_REGION"

/-! ## The lines of the surfaces -/

theorem faces_line {m : Model D} (is : List Nat) : ∀ (n : Nat) (l : Str), l ∈ facesLines m n is →
    startsWith l cs!"TFACE" = true ∨ startsWith l cs!"KEYVERTICES" = true ∨ startsWith l cs!"TRGL" = true := by
  induction is with
  | nil => intro n l h; simp [facesLines] at h
  | cons i is ih =>
    intro n l h
    rw [facesLines] at h
    rcases List.mem_append.1 h with h | h
    · cases hs : surfaceOf m i with
      | none => rw [hs] at h; simp at h
      | some s =>
        rw [hs] at h
        rcases List.mem_cons.1 h with rfl | h
        · exact Or.inl (startsWith_append _ _)
        rcases List.mem_cons.1 h with rfl | h
        · exact Or.inr (Or.inl (startsWith_append _ _))
        · obtain ⟨t, _, rfl⟩ := List.mem_map.1 h
          exact Or.inr (Or.inr (startsWith_append _ _))
    · exact ih _ l h

theorem groups_line {m : Model D} (gs : List (Str × List Nat)) : ∀ (n : Nat) (l : Str), l ∈ groupsLines m n gs →
    (∃ g ∈ gs, l = cs!"SURFACE" ++ spaced [g.1]) ∨
      startsWith l cs!"TFACE" = true ∨ startsWith l cs!"KEYVERTICES" = true ∨ startsWith l cs!"TRGL" = true := by
  induction gs with
  | nil => intro n l h; simp [groupsLines] at h
  | cons g gs ih =>
    intro n l h
    rw [groupsLines] at h
    rcases List.mem_cons.1 h with rfl | h
    · exact Or.inl ⟨g, by simp, rfl⟩
    rcases List.mem_append.1 h with h | h
    · exact Or.inr (faces_line _ _ l h)
    · rcases ih _ l h with ⟨g', hg, e⟩ | h
      · exact Or.inl ⟨g', List.mem_cons_of_mem _ hg, e⟩
      · exact Or.inr h

/-- Lines that start with a word do not start with another one. -/
theorem startsWith_other {l a b : Str} (h : startsWith l a = true) (hab : startsWith a b = false) (hba : startsWith b a = false) :
    startsWith l b = false := by
  unfold startsWith at *
  cases hb : b.isPrefixOf l with
  | false => rfl
  | true =>
    have h1 := List.isPrefixOf_iff_prefix.1 h
    have h2 := List.isPrefixOf_iff_prefix.1 hb
    rcases List.prefix_or_prefix_of_prefix h1 h2 with h3 | h3
    · rw [List.isPrefixOf_iff_prefix.2 h3] at hba; cases hba
    · rw [List.isPrefixOf_iff_prefix.2 h3] at hab; cases hab

theorem groups_not_region {m : Model D} {gs : List (Str × List Nat)} {n : Nat} {l : Str} (h : l ∈ groupsLines m n gs) : isRegion l = false := by
  rcases groups_line gs n l h with ⟨g, _, rfl⟩ | h | h | h
  · rfl
  all_goals exact startsWith_other h rfl rfl

/-! ## The lines of the blocks -/

theorem regions_cut {eol : Bool} {s : Solid D} {st : RState} {bs : List (Block D)} {ls : File} (hn : ∀ b ∈ bs, split b.name ≠ [])
    (h : List.Forall₂ (fun (b : Block D) l => ∃ side k, l = regionLine b.name side k) bs ls) : ∀ (acc : List (RBlock D)) (i : Bool) (l0 : Str) (f0 : File),
    ls = l0 :: f0 → Unfinished.readBlocks eol {} s st (acc, i) l0 f0 =
      if eol then .ok (acc ++ bs.map (fun b => loadedBlock s st (wordOr b.name cs!"none")), i || bs.any fun b => oddBlock st s (wordOr b.name cs!"none"))
      else .diverge := by
  induction h with
  | nil => intro acc i l0 f0 e; cases e
  | @cons b l bs ls hb hbs ih =>
    intro acc i l0 f0 e
    cases e
    obtain ⟨side, k, rfl⟩ := hb
    have hk : startsWith (regionLine b.name side k) cs!"MODEL_REGION" = true := startsWith_append _ _
    cases ls with
    | nil =>
      cases hbs
      rw [Unfinished.readBlocks, if_pos hk, readBlock_regionLine _ _ _ (hn b (by simp)), ok_bind]
      cases eol <;> simp
    | cons l1 f1 =>
      rw [Unfinished.readBlocks, if_pos hk, readBlock_regionLine _ _ _ (hn b (by simp)), ok_bind]
      dsimp only
      rw [ih (fun b hb => hn b (List.mem_cons_of_mem _ hb)) _ _ l1 f1 rfl]
      simp [Bool.or_assoc]

theorem regions_ended {eol : Bool} {s : Solid D} {st : RState} {bs : List (Block D)} {ls : File} (hn : ∀ b ∈ bs, split b.name ≠ [])
    (h : List.Forall₂ (fun (b : Block D) l => ∃ side k, l = regionLine b.name side k) bs ls) : ∀ (acc : List (RBlock D)) (i : Bool) (l0 : Str) (f0 : File),
    ls ++ [cs!"END"] = l0 :: f0 → Unfinished.readBlocks eol {} s st (acc, i) l0 f0 =
      .ok (acc ++ bs.map (fun b => loadedBlock s st (wordOr b.name cs!"none")), i || bs.any fun b => oddBlock st s (wordOr b.name cs!"none")) := by
  induction h with
  | nil =>
    intro acc i l0 f0 e
    cases e
    have : startsWith cs!"END" cs!"MODEL_REGION" = false := rfl
    rw [Unfinished.readBlocks, this]
    simp
  | @cons b l bs ls hb hbs ih =>
    intro acc i l0 f0 e
    rw [List.cons_append] at e
    injection e with e1 e2
    subst e1 e2
    obtain ⟨side, k, rfl⟩ := hb
    have hk : startsWith (regionLine b.name side k) cs!"MODEL_REGION" = true := startsWith_append _ _
    obtain ⟨l1, f1, e1⟩ : ∃ l1 f1, ls ++ [cs!"END"] = l1 :: f1 := by cases ls <;> simp
    rw [e1, Unfinished.readBlocks, if_pos hk, readBlock_regionLine _ _ _ (hn b (by simp)), ok_bind]
    dsimp only
    rw [ih (fun b hb => hn b (List.mem_cons_of_mem _ hb)) _ _ l1 f1 e1]
    simp [Bool.or_assoc]

/-! ## Files cut in the model -/

theorem getLastD_mem {α : Type} {l : List α} {d : α} (h : l ≠ []) : l.getLastD d ∈ l := by
  induction l generalizing d with
  | nil => exact absurd rfl h
  | cons a l ih =>
    rw [List.getLastD_cons]
    cases l with
    | nil => simp
    | cons b l => exact List.mem_cons_of_mem _ (ih (by simp))

theorem getLastD_append {α : Type} {l r : List α} {d : α} (h : r ≠ []) : (l ++ r).getLastD d ∈ r := by
  have : (l ++ r).getLastD d = r.getLastD d := by
    induction l generalizing d with
    | nil => rfl
    | cons a l ih =>
      rw [List.cons_append, List.getLastD_cons, ih]
      cases r with
      | nil => exact absurd rfl h
      | cons b r => rfl
  rw [this]
  exact getLastD_mem h

theorem getLastD_take_mem {α : Type} {l : List α} {k : Nat} {d : α} : (l.take k).getLastD d = d ∨ (l.take k).getLastD d ∈ l.take k := by
  by_cases h : l.take k = []
  · rw [h]; exact Or.inl rfl
  · exact Or.inr (getLastD_mem h)

theorem regions_are {bs : List (Block D)} {ls : File}
    (h : List.Forall₂ (fun (b : Block D) l => ∃ side k, l = regionLine b.name side k) bs ls) : ∀ l ∈ ls, isRegion l = true := by
  induction h with
  | nil => intro l hl; simp at hl
  | cons hb _ ih =>
    intro l hl
    rcases List.mem_cons.1 hl with rfl | hl
    · obtain ⟨side, k, rfl⟩ := hb
      exact startsWith_append _ _
    · exact ih l hl

theorem forall₂_take {α β : Type} {R : α → β → Prop} {l : List α} {r : List β} (h : List.Forall₂ R l r) (n : Nat) :
    List.Forall₂ R (l.take n) (r.take n) := by
  induction h generalizing n with
  | nil => simp
  | cons h1 _ ih =>
    cases n with
    | zero => exact List.Forall₂.nil
    | succ n => exact List.Forall₂.cons h1 (ih n)

theorem not_region_end : isRegion cs!"END" = false := rfl

/-- What is loaded from the beginning of a saved file cut after the line `MODEL`. -/
theorem cut_model [LawfulNum D] {m : Model D} (h : Loadable m) {sides : Sides.AllSides} {f : File} (hf : saveLso m sides = .ok f) :
    ∃ (pre body : File) (L : Lso.Loaded D), f = pre ++ cs!"MODEL" :: body ∧ (∀ l ∈ pre, startsWith l cs!"MODEL" = false) ∧ loadLso f = .ok L ∧
      ∀ k, ∃ L' : Lso.Loaded D, L'.name = L.name ∧ L'.solid = L.solid ∧ L'.blocks = L.blocks.take ((body.take k).countP isRegion) ∧
        ∀ eol, Unfinished.loadLso eol (pre ++ cs!"MODEL" :: body.take k) =
          if eol = false ∧ opens ((body.take k).getLastD cs!"MODEL") = true then .diverge else .ok L' := by
  obtain ⟨pre, rl, S, ef, hpre, hreg, hsurf, hfront⟩ := Unfinished.front_save h hf
  have hload : ∀ (eol : Bool) (g : File), Unfinished.loadLso eol (pre ++ cs!"MODEL" :: g) = Unfinished.loadModel eol m.name {} S cs!"MODEL" g := by
    intro eol g
    unfold Unfinished.loadLso
    rw [hfront, ok_bind]
  have hGr : (groupsLines m 1 (groups m)).countP isRegion = 0 := List.countP_eq_zero.2 fun l hl => by simp [groups_not_region hl]
  have hregl : ∀ l ∈ rl, isRegion l = true := regions_are hreg
  have hRl : ∀ j, (rl.take j).countP isRegion = (rl.take j).length := fun j =>
    List.countP_eq_length.2 fun l hl => hregl l (List.mem_of_mem_take hl)
  have hlen : m.blocks.length = rl.length := hreg.length_eq
  let F : Block D → RBlock D := fun b => loadedBlock S (stateOf m S) (wordOr b.name cs!"none")
  let O : Block D → Bool := fun b => oddBlock (stateOf m S) S (wordOr b.name cs!"none")
  have hstart : ∀ l0, isRegion l0 = true ∨ l0 = cs!"END" → ∀ kw ∈ [cs!"SURFACE", cs!"TFACE", cs!"TRGL"], startsWith l0 kw = false := by
    intro l0 h0 kw hkw
    simp only [List.mem_cons, List.not_mem_nil, or_false] at hkw
    rcases h0 with h0 | rfl
    · rcases hkw with rfl | rfl | rfl <;> exact startsWith_other h0 rfl rfl
    · rcases hkw with rfl | rfl | rfl <;> rfl
  -- the end of the file
  have hend : ∀ eol : Bool, Unfinished.loadModel eol m.name {} S cs!"MODEL" (groupsLines m 1 (groups m) ++ (rl ++ [cs!"END"])) =
      .ok { name := m.name, solid := S, horizons := (stateOf m S).horizons, surfaces := (stateOf m S).surfaces, blocks := m.blocks.map F
            inspect := (stateOf m S).inspect || m.blocks.any O } := by
    intro eol
    obtain ⟨l0, f0, e0⟩ : ∃ l1 f1, rl ++ [cs!"END"] = l1 :: f1 := by cases rl <;> simp
    have hl0 : isRegion l0 = true ∨ l0 = cs!"END" := by
      have : l0 ∈ rl ++ [cs!"END"] := by rw [e0]; simp
      rcases List.mem_append.1 this with h1 | h1
      · exact Or.inl (hregl l0 h1)
      · exact Or.inr (by simpa using h1)
    have hne : l0 ≠ [] := by
      rintro rfl
      rcases hl0 with h1 | h1
      · exact absurd h1 (by decide)
      · exact absurd h1 (by decide)
    unfold Unfinished.loadModel
    rw [e0, Unfinished.readSurfaces_agree hne (hsurf l0 f0 (hstart l0 hl0)), ok_bind]
    dsimp only
    rw [regions_ended h.names hreg _ _ l0 f0 e0, ok_bind]
    simp [F, O]
  refine ⟨pre, groupsLines m 1 (groups m) ++ (rl ++ [cs!"END"]),
    { name := m.name, solid := S, horizons := (stateOf m S).horizons, surfaces := (stateOf m S).surfaces, blocks := m.blocks.map F, inspect := (stateOf m S).inspect || m.blocks.any O }, ef, hpre, ?_, ?_⟩
  · rw [← Unfinished.loadLso_true, ef, hload]
    exact hend true
  intro k
  by_cases hk : k ≤ (groupsLines m 1 (groups m)).length
  · -- cut in the surfaces
    have htk : (groupsLines m 1 (groups m) ++ (rl ++ [cs!"END"])).take k = (groupsLines m 1 (groups m)).take k := List.take_append_of_le_length hk
    rw [htk]
    generalize hp : (groupsLines m 1 (groups m)).take k = p
    have hcount : p.countP isRegion = 0 := by
      rw [← hp]
      exact List.countP_eq_zero.2 fun l hl => by simp [groups_not_region (List.mem_of_mem_take hl)]
    obtain ⟨st, hst⟩ := Unfinished.readSurfaces_prefix (s := S) (p := p) (q := (groupsLines m 1 (groups m)).drop k ++ [cs!"END"]) (rest' := [])
      (by simp) (by rw [← List.append_assoc, ← hp, List.take_append_drop]; exact hsurf cs!"END" [] (hstart _ (Or.inr rfl)))
    refine ⟨{ name := m.name, solid := S, horizons := st.horizons, surfaces := st.surfaces, blocks := [], inspect := st.inspect }, rfl, rfl, ?_, ?_⟩
    · rw [hcount]; rfl
    intro eol
    rw [hload]
    unfold Unfinished.loadModel
    rw [hst]
    have hlast : p.getLastD cs!"MODEL" = cs!"MODEL" ∨ p.getLastD cs!"MODEL" ∈ groupsLines m 1 (groups m) := by
      rw [← hp]
      rcases getLastD_take_mem (l := groupsLines m 1 (groups m)) (k := k) (d := cs!"MODEL") with h1 | h1
      · exact Or.inl h1
      · exact Or.inr (List.mem_of_mem_take h1)
    generalize p.getLastD cs!"MODEL" = l at *
    have hnr : isRegion l = false := by
      rcases hlast with rfl | hl
      · rfl
      · exact groups_not_region hl
    have hmr : startsWith l cs!"MODEL_REGION" = false := hnr
    cases eol with
    | true =>
      have e : Unfinished.surfacesEnd st (Unfinished.keep true l) = .ok (st, [], []) := rfl
      rw [if_neg (by simp), e, ok_bind]
      dsimp only
      rw [Unfinished.readBlocks, if_neg (by decide), ok_bind]
      simp
    | false =>
      rw [Unfinished.keep_false]
      unfold Unfinished.surfacesEnd opens
      by_cases h1 : startsWith l cs!"TFACE" = true
      · rw [if_pos h1, if_pos (by simp [h1])]; rfl
      rw [if_neg h1]
      by_cases h2 : startsWith l cs!"SURFACE" = true
      · rw [if_pos h2, if_pos (by simp [h2])]
        have hi : ∃ w, Res.index (split l) 1 = .ok w := by
          rcases hlast with rfl | hl
          · exact absurd h2 (by decide)
          rcases groups_line _ _ _ hl with ⟨g, hg, rfl⟩ | h3 | h3 | h3
          · obtain ⟨c, hc, e⟩ := kept_sub hg
            rw [split_surface, e]
            cases hsp : split c.1 with
            | nil => exact absurd hsp (h.collections c hc).1
            | cons a b => exact ⟨a, rfl⟩
          · exact absurd h3 h1
          · exact absurd h2 (by rw [startsWith_other h3 rfl rfl]; simp)
          · exact absurd h2 (by rw [startsWith_other h3 rfl rfl]; simp)
        obtain ⟨w, hw⟩ := hi
        rw [hw]; rfl
      · rw [if_neg h2, if_neg (by simp [h1, h2, hmr]), ok_bind]
        dsimp only
        rw [Unfinished.readBlocks, if_neg (by simp [hmr]), ok_bind]
        simp
  · -- cut in the blocks
    obtain ⟨j, rfl⟩ : ∃ j, k = (groupsLines m 1 (groups m)).length + (j + 1) := ⟨k - (groupsLines m 1 (groups m)).length - 1, by omega⟩
    have htk : (groupsLines m 1 (groups m) ++ (rl ++ [cs!"END"])).take ((groupsLines m 1 (groups m)).length + (j + 1)) =
        groupsLines m 1 (groups m) ++ (rl ++ [cs!"END"]).take (j + 1) := List.take_length_add_append _
    rw [htk, List.countP_append, hGr, Nat.zero_add]
    by_cases hj : j + 1 ≤ rl.length
    · have htk2 : (rl ++ [cs!"END"]).take (j + 1) = rl.take (j + 1) := List.take_append_of_le_length hj
      rw [htk2, hRl]
      obtain ⟨l0, f0, e0⟩ : ∃ l1 f1, rl.take (j + 1) = l1 :: f1 := by
        cases rl with
        | nil => simp at hj
        | cons a b => exact ⟨a, b.take j, rfl⟩
      have hl0 : isRegion l0 = true := hregl l0 (List.mem_of_mem_take (by rw [e0]; simp))
      have hne : l0 ≠ [] := by
        rintro rfl
        exact absurd hl0 (by decide)
      refine ⟨{ name := m.name, solid := S, horizons := (stateOf m S).horizons, surfaces := (stateOf m S).surfaces
                blocks := (m.blocks.take (j + 1)).map F, inspect := (stateOf m S).inspect || (m.blocks.take (j + 1)).any O }, rfl, rfl, ?_, ?_⟩
      · have : (rl.take (j + 1)).length = j + 1 := by simp; omega
        rw [this, List.map_take]
      intro eol
      rw [hload]
      unfold Unfinished.loadModel
      have hop : opens ((groupsLines m 1 (groups m) ++ rl.take (j + 1)).getLastD cs!"MODEL") = true := by
        have : (groupsLines m 1 (groups m) ++ rl.take (j + 1)).getLastD cs!"MODEL" ∈ rl.take (j + 1) := by
          exact getLastD_append (by rw [e0]; simp)
        have := hregl _ (List.mem_of_mem_take this)
        unfold isRegion at this
        unfold opens
        rw [this]
        simp
      rw [hop]
      rw [e0, Unfinished.readSurfaces_agree hne (hsurf l0 f0 (hstart l0 (Or.inl hl0))), ok_bind]
      dsimp only
      rw [regions_cut (fun b hb => h.names b (List.mem_of_mem_take hb)) (forall₂_take hreg (j + 1)) _ _ l0 f0 e0]
      cases eol <;> simp [F, O]
    · have htk2 : (rl ++ [cs!"END"]).take (j + 1) = rl ++ [cs!"END"] := List.take_of_length_le (by simp; omega)
      rw [htk2, List.countP_append]
      have hc : rl.countP isRegion = rl.length := by simpa using hRl rl.length
      rw [hc]
      refine ⟨{ name := m.name, solid := S, horizons := (stateOf m S).horizons, surfaces := (stateOf m S).surfaces, blocks := m.blocks.map F, inspect := (stateOf m S).inspect || m.blocks.any O }, rfl, rfl, ?_, ?_⟩
      · have : [cs!"END"].countP isRegion = 0 := rfl
        rw [this, Nat.add_zero, ← hlen, List.take_of_length_le (by simp)]
      intro eol
      have hop : opens ((groupsLines m 1 (groups m) ++ (rl ++ [cs!"END"])).getLastD cs!"MODEL") = false := by
        have := getLastD_append (l := groupsLines m 1 (groups m) ++ rl) (r := [cs!"END"]) (d := cs!"MODEL") (by simp)
        rw [List.mem_singleton, List.append_assoc] at this
        rw [this]
        rfl
      rw [hop, if_neg (by simp), hload]
      exact hend eol

theorem take_model {pre body : File} {n : Nat} (hpre : ∀ l ∈ pre, startsWith l cs!"MODEL" = false)
    (h : ∃ l ∈ (pre ++ cs!"MODEL" :: body).take n, startsWith l cs!"MODEL" = true) :
    ∃ k, (pre ++ cs!"MODEL" :: body).take n = pre ++ cs!"MODEL" :: body.take k := by
  by_cases hn : n ≤ pre.length
  · rw [List.take_append_of_le_length hn] at h
    obtain ⟨l, hl, e⟩ := h
    rw [hpre l (List.mem_of_mem_take hl)] at e
    cases e
  · obtain ⟨k, rfl⟩ : ∃ k, n = pre.length + (k + 1) := ⟨n - pre.length - 1, by omega⟩
    exact ⟨k, by rw [List.take_length_add_append]; rfl⟩

theorem countP_pre {pre g : File} (hpre : ∀ l ∈ pre, startsWith l cs!"MODEL" = false) :
    (pre ++ cs!"MODEL" :: g).countP isRegion = g.countP isRegion := by
  have h0 : pre.countP isRegion = 0 := List.countP_eq_zero.2 fun l hl => by
    intro h1
    have h2 := hpre l hl
    unfold isRegion startsWith at h1
    unfold startsWith at h2
    have h3 : cs!"MODEL".isPrefixOf l = true :=
      List.isPrefixOf_iff_prefix.2 (List.IsPrefix.trans ⟨cs!"_REGION", rfl⟩ (List.isPrefixOf_iff_prefix.1 h1))
    rw [h3] at h2
    cases h2
  rw [List.countP_append, h0, Nat.zero_add, List.countP_cons_of_neg (by decide)]

theorem getLastD_pre {pre g : File} : (pre ++ cs!"MODEL" :: g).getLastD [] = g.getLastD cs!"MODEL" := by
  have : ∀ (p : File) (d : Str), (p ++ cs!"MODEL" :: g).getLastD d = g.getLastD cs!"MODEL" := by
    intro p
    induction p with
    | nil => intro d; rw [List.nil_append, List.getLastD_cons]
    | cons a p ih => intro d; rw [List.cons_append, List.getLastD_cons, ih]
  exact this pre []

/-- A file cut after the line `MODEL` is loaded without a word, with the blocks of the lines left. -/
theorem cut_loads [LawfulNum D] {m : Model D} (h : Loadable m) {sides : Sides.AllSides} {f : File} (hf : saveLso m sides = .ok f) {n : Nat}
    (hn : ∃ l ∈ f.take n, startsWith l cs!"MODEL" = true) :
    ∃ L L' : Lso.Loaded D, loadLso f = .ok L ∧ loadLso (f.take n) = .ok L' ∧ L'.name = L.name ∧ L'.solid = L.solid ∧
      L'.blocks = L.blocks.take ((f.take n).countP isRegion) := by
  obtain ⟨pre, body, L, ef, hpre, hL, hk⟩ := cut_model h hf
  rw [ef] at hn
  obtain ⟨k, e⟩ := take_model hpre hn
  obtain ⟨L', h1, h2, h3, h4⟩ := hk k
  have h5 := h4 true
  rw [if_neg (by simp), Unfinished.loadLso_true] at h5
  refine ⟨L, L', hL, ?_, h1, h2, ?_⟩
  · rw [ef, e]; exact h5
  · rw [ef, e, countP_pre hpre]; exact h3

/-- The same file without the line feed of its last line: a line that opens a surface, a face or a block is read for ever. -/
theorem cut_unfinished [LawfulNum D] {m : Model D} (h : Loadable m) {sides : Sides.AllSides} {f : File} (hf : saveLso m sides = .ok f) {n : Nat}
    (hn : ∃ l ∈ f.take n, startsWith l cs!"MODEL" = true) :
    Unfinished.loadLso (D := D) false (f.take n) = if opens ((f.take n).getLastD []) = true then .diverge else loadLso (f.take n) := by
  obtain ⟨pre, body, L, ef, hpre, hL, hk⟩ := cut_model h hf
  rw [ef] at hn
  obtain ⟨k, e⟩ := take_model hpre hn
  obtain ⟨L', h1, h2, h3, h4⟩ := hk k
  rw [ef, e, getLastD_pre, h4 false, ← Unfinished.loadLso_true, h4 true]
  simp

/-- The line feed after the last line of a whole file does not matter. -/
theorem whole_unfinished [LawfulNum D] {m : Model D} (h : Loadable m) {sides : Sides.AllSides} {f : File} (hf : saveLso m sides = .ok f) :
    Unfinished.loadLso (D := D) false f = loadLso f := by
  have hl : f.getLastD [] = cs!"END" := by
    unfold saveLso at hf
    obtain ⟨⟨vs, vl⟩, _, h2⟩ := bind_eq_ok.1 hf
    obtain ⟨tl, _, h4⟩ := bind_eq_ok.1 h2
    obtain ⟨st, _, h6⟩ := bind_eq_ok.1 h4
    obtain ⟨rl, _, h8⟩ := bind_eq_ok.1 h6
    rw [← Res.ok.inj h8]
    simpa using getLastD_append (l := [cs!"GOCAD LightTSolid 1"] ++ writeHeader m.name ++ writeCrs {} ++ vl ++ tl ++ [cs!"MODEL"] ++ st.lines ++ rl)
      (r := [cs!"END"]) (d := []) (by simp)
  obtain ⟨pre, body, L, ef, hpre, hL, hk⟩ := cut_model h hf
  have hn : ∃ l ∈ f.take f.length, startsWith l cs!"MODEL" = true := by
    rw [List.take_length, ef]
    exact ⟨cs!"MODEL", by simp, rfl⟩
  have := cut_unfinished h hf hn
  rw [List.take_length, hl, if_neg (by decide)] at this
  exact this

/-! ## Files without a line `MODEL` -/

theorem mem_verticesLoop {eol z : Bool} {e : List Nat} {s' : Solid D} {l' : Str} {f' : File} (f : File) : ∀ (line : Str) (s : Solid D),
    Unfinished.verticesLoop eol z e line s f = .ok (s', l', f') → (l' = [] ∨ l' = line ∨ l' ∈ f) ∧ ∀ x ∈ f', x ∈ f := by
  induction f with
  | nil =>
    intro line s h
    cases h
    cases eol <;> simp [Unfinished.keep]
  | cons l ls ih =>
    intro line s h
    rw [Unfinished.verticesLoop] at h
    split at h
    · obtain ⟨s1, _, h2⟩ := bind_eq_ok.1 h
      obtain ⟨h3, h4⟩ := ih l s1 h2
      refine ⟨?_, fun x hx => List.mem_cons_of_mem _ (h4 x hx)⟩
      rcases h3 with h3 | rfl | h3
      · exact Or.inl h3
      · exact Or.inr (Or.inr (by simp))
      · exact Or.inr (Or.inr (List.mem_cons_of_mem _ h3))
    · cases h
      exact ⟨Or.inr (Or.inr (by simp)), fun x hx => List.mem_cons_of_mem _ hx⟩

theorem mem_readTetras {eol : Bool} {e : List Nat} {s' : Solid D} {l' : Str} {f' : File} : ∀ (f : File) (s : Solid D) (l : Str),
    Unfinished.readTetras eol e s l f = .ok (s', l', f') → (l' = [] ∨ l' = l ∨ l' ∈ f) ∧ ∀ x ∈ f', x ∈ f
  | [], s, l, h => by
    rw [Unfinished.readTetras] at h
    obtain ⟨s1, _, h2⟩ := bind_eq_ok.1 h
    cases h2
    cases eol <;> simp [Unfinished.keep]
  | [l2], s, l, h => by
    rw [Unfinished.readTetras] at h
    obtain ⟨s1, _, h2⟩ := bind_eq_ok.1 h
    cases h2
    cases eol <;> simp [Unfinished.keep]
  | l2 :: l3 :: ls, s, l, h => by
    rw [Unfinished.readTetras] at h
    obtain ⟨s1, h1, h2⟩ := bind_eq_ok.1 h
    split at h2
    · obtain ⟨h3, h4⟩ := mem_readTetras ls s1 l3 h2
      refine ⟨?_, fun x hx => List.mem_cons_of_mem _ (List.mem_cons_of_mem _ (h4 x hx))⟩
      rcases h3 with h3 | rfl | h3
      · exact Or.inl h3
      · exact Or.inr (Or.inr (by simp))
      · exact Or.inr (Or.inr (List.mem_cons_of_mem _ (List.mem_cons_of_mem _ h3)))
    · cases h2
      exact ⟨Or.inr (Or.inr (by simp)), fun x hx => List.mem_cons_of_mem _ (List.mem_cons_of_mem _ hx)⟩

theorem mem_skipSection {eol : Bool} {k l l' : Str} {f f' : File} (h : Unfinished.skipSection eol k l f = .ok (l', f')) :
    (l' = [] ∨ l' = l ∨ l' ∈ f) ∧ ∀ x ∈ f', x ∈ f := by
  unfold Unfinished.skipSection at h
  split at h
  · obtain ⟨⟨x, g⟩, h1, h2⟩ := bind_eq_ok.1 h
    obtain ⟨u, rfl⟩ := (gotoKeyword_cut _).suffix h1
    cases g with
    | nil => cases h2; cases eol <;> simp [Unfinished.keep]
    | cons a g => cases h2; simp; exact fun x hx => Or.inr (Or.inr hx)
  · cases h; simp

/-- A file without a line that starts with `MODEL` is not loaded. -/
theorem no_model_line {eol : Bool} {f : File} (hf : ∀ l ∈ f, startsWith l cs!"MODEL" = false) (L : Lso.Loaded D) : Unfinished.loadLso eol f ≠ .ok L := by
  intro h
  unfold Unfinished.loadLso at h
  obtain ⟨⟨name, hd, s, l, g⟩, h1, h2⟩ := bind_eq_ok.1 h
  have hlg : startsWith l cs!"MODEL" = false ∧ ∀ x ∈ g, startsWith x cs!"MODEL" = false := by
    unfold Unfinished.loadFront at h1
    obtain ⟨⟨_, f1⟩, a1, h1⟩ := bind_eq_ok.1 h1
    obtain ⟨⟨_, f2⟩, a2, h1⟩ := bind_eq_ok.1 h1
    obtain ⟨⟨_, f3⟩, a3, h1⟩ := bind_eq_ok.1 h1
    obtain ⟨⟨_, f4⟩, a4, h1⟩ := bind_eq_ok.1 h1
    obtain ⟨⟨_, f5⟩, a5, h1⟩ := bind_eq_ok.1 h1
    obtain ⟨⟨_, l6, f6⟩, a6, h1⟩ := bind_eq_ok.1 h1
    obtain ⟨⟨l7, f7⟩, a7, h1⟩ := bind_eq_ok.1 h1
    obtain ⟨⟨_, l8, f8⟩, a8, h1⟩ := bind_eq_ok.1 h1
    obtain ⟨⟨l9, f9⟩, a9, h1⟩ := bind_eq_ok.1 h1
    cases h1
    obtain ⟨u1, rfl⟩ := (gotoKeyword_cut _).suffix a1
    obtain ⟨u2, rfl⟩ := readHeader_cut.suffix a2
    obtain ⟨u3, rfl⟩ := readCrs_cut.suffix a3
    obtain ⟨u4, rfl⟩ := (readPropHeader_cut _).suffix a4
    obtain ⟨u5, rfl⟩ := (readPropHeader_cut _).suffix a5
    have g5 : ∀ x ∈ f5, startsWith x cs!"MODEL" = false := fun x hx => hf x (by simp [hx])
    clear hf a1 a2 a3 a4 a5
    have step : ∀ {l l' : Str} {f f' : File}, startsWith l cs!"MODEL" = false → (∀ x ∈ f, startsWith x cs!"MODEL" = false) →
        ((l' = [] ∨ l' = l ∨ l' ∈ f) ∧ ∀ x ∈ f', x ∈ f) → startsWith l' cs!"MODEL" = false ∧ ∀ x ∈ f', startsWith x cs!"MODEL" = false := by
      intro l l' f f' hl hf h
      refine ⟨?_, fun x hx => hf x (h.2 x hx)⟩
      rcases h.1 with rfl | rfl | h1
      · rfl
      · exact hl
      · exact hf _ h1
    have g6 : startsWith l6 cs!"MODEL" = false ∧ ∀ x ∈ f6, startsWith x cs!"MODEL" = false := by
      unfold Unfinished.readVertices at a6
      obtain ⟨⟨l0, f0⟩, b1, b2⟩ := bind_eq_ok.1 a6
      obtain ⟨s0, _, b3⟩ := bind_eq_ok.1 b2
      obtain ⟨u, rfl⟩ := gotoKeywords_suffix b1
      exact step (g5 l0 (by simp)) (fun x hx => g5 x (by simp [hx])) (mem_verticesLoop _ _ _ b3)
    have g7 := step g6.1 g6.2 (mem_skipSection a7)
    have g8 := step g7.1 g7.2 (mem_readTetras _ _ _ a8)
    exact step g8.1 g8.2 (mem_skipSection a9)
  unfold Unfinished.loadModel at h2
  obtain ⟨_, h3, _⟩ := bind_eq_ok.1 h2
  unfold Unfinished.readSurfaces at h3
  rw [if_neg (by simp [hlg.1])] at h3
  obtain ⟨g', h4, _⟩ := bind_eq_ok.1 h3
  obtain ⟨x, h5, _⟩ := bind_eq_ok.1 h4
  rw [gotoKeyword, Props.GocadTruncated.gotoKeyword?_no_kw hlg.2] at h5
  cases h5

/-! ## The properties -/

/-- Every file cut after one of its lines, with or without the line feed of that line, is refused with an exception. -/
def CutReported (D : Type) [Num D] : Prop :=
  ∀ (m : Model D) (sides : Sides.AllSides) (f : File), Loadable m → saveLso m sides = .ok f →
    ∀ (n : Nat) (eol : Bool), n < f.length → Unfinished.loadLso (D := D) eol (f.take n) = .throw

/-- The file of the two blocks. -/
def twoFile : File := match saveLso Props.LsoNumbers.twoBlocks Props.LsoNumbers.twoSides with | .ok f => f | _ => []

theorem twoFile_saved : saveLso Props.LsoNumbers.twoBlocks Props.LsoNumbers.twoSides = .ok twoFile := by
  unfold twoFile
  cases h : saveLso Props.LsoNumbers.twoBlocks Props.LsoNumbers.twoSides with
  | ok f => rfl
  | _ => exact absurd h (by decide +kernel)

/-- What happens to the file of two blocks cut after each number of its lines. -/
def ends (eol : Bool) : Str := (List.range (twoFile.length + 1)).map fun n =>
  match Unfinished.loadLso (D := Int) eol (twoFile.take n) with | .ok _ => 'o' | .throw => 't' | .ub => 'u' | .diverge => 'd'

/-- Cut in the vertices or after a tetrahedron the file has undefined behaviour (`u`); cut after the line `MODEL` it is loaded (`o`). -/
theorem cut_ends : ends true = cs!"ttttttttttttuuuuuuuuututoooooooo" := by decide +kernel

/-- Without the line feed of the last line, four of the cut files are read for ever (`d`). -/
theorem cut_ends_unfinished : ends false = cs!"ttttttttttttuuuutuuuttttoddooddo" := by decide +kernel

/-- The code does not report all the files that are cut. -/
theorem cut_not_reported : ¬ CutReported Int := by
  intro h
  have := h Props.LsoNumbers.twoBlocks Props.LsoNumbers.twoSides twoFile Props.LsoRoundTrip.twoBlocks_loadable twoFile_saved 24 true (by decide +kernel)
  revert this
  decide +kernel

/-- What holds of it: a file cut before the line `MODEL` is not loaded. The full statement, `CutReported`, also asks for an exception there (the code
has undefined behaviour in the vertices) and in the files cut after the line `MODEL`, that `cut_loads` and `cut_unfinished` describe. -/
theorem cut_reported_partial {m : Model D} {sides : Sides.AllSides} {f : File} (_ : saveLso m sides = .ok f) {n : Nat} {eol : Bool}
    (hn : ∀ l ∈ f.take n, startsWith l cs!"MODEL" = false) (L : Lso.Loaded D) : Unfinished.loadLso eol (f.take n) ≠ .ok L :=
  no_model_line hn L

/-- Reading a file ends, whether or not its last line is finished. -/
def Ends (D : Type) [Num D] : Prop := ∀ (f : File) (eol : Bool), Unfinished.loadLso (D := D) eol f ≠ .diverge

/-- A file whose last line is `SURFACE h`, without line feed, is read for ever. -/
theorem not_ends : ¬ Ends Int := by
  intro h
  refine h (twoFile.take 25) false ?_
  decide +kernel

theorem surfacesLoop_ne {eol : Bool} {s : Solid D} {last : Str} (ho : eol = true ∨ opens last = false) (f : File) : ∀ (line : Str) (r : RState × Mode),
    (eol = false → f.getLastD line = last) → Unfinished.surfacesLoop eol s line r f ≠ .diverge ∧
      ∀ st l' f', Unfinished.surfacesLoop eol s line r f = .ok (st, l', f') → eol = false → f'.getLastD l' = last := by
  induction f with
  | nil =>
    rintro line ⟨st, mode⟩ hl
    have e : Unfinished.surfacesLoop eol s line (st, mode) [] = .ok (st, Unfinished.keep eol line, []) := by
      rw [Unfinished.surfacesLoop, Unfinished.surfacesEnd]
      cases eol with
      | true => rfl
      | false =>
        have : line = last := hl rfl
        subst this
        rcases ho with ho | ho
        · cases ho
        · simp only [opens, Bool.or_eq_false_iff] at ho
          rw [Unfinished.keep_false, if_neg (by simp [ho.1.2]), if_neg (by simp [ho.1.1])]
    rw [e]
    refine ⟨nofun, ?_⟩
    rintro st' l' f' h rfl
    cases h
    exact hl rfl
  | cons l ls ih =>
    rintro line ⟨st, mode⟩ hl
    rw [Unfinished.surfacesLoop]
    have hl' : eol = false → ls.getLastD l = last := fun he => by have := hl he; rw [List.getLastD_cons] at this; exact this
    refine ⟨GocadMesh.bind_ne_diverge (LsoEnds.surfacesStep_ne _ _ _ _) fun o => ?_, ?_⟩
    · cases o with
      | none => nofun
      | some r => exact (ih l r hl').1
    · intro st' l' f' h
      obtain ⟨o, _, h2⟩ := bind_eq_ok.1 h
      cases o with
      | none => cases h2; exact hl'
      | some r => exact (ih l r hl').2 st' l' f' h2

theorem readBlocks_ne {eol : Bool} {hd : Headers D} {s : Solid D} {st : RState} {last : Str} (ho : eol = true ∨ opens last = false) (f : File) :
    ∀ (l : Str) (b : List (RBlock D) × Bool), (eol = false → f.getLastD l = last) → Unfinished.readBlocks eol hd s st b l f ≠ .diverge := by
  induction f with
  | nil =>
    rintro l ⟨bs, i⟩ hl
    rw [Unfinished.readBlocks]
    split
    case isTrue h =>
      refine GocadMesh.bind_ne_diverge (LsoEnds.readBlock_ne _ _ _ _) fun r => ?_
      cases eol with
      | true => nofun
      | false =>
        have : l = last := hl rfl
        subst this
        rcases ho with ho | ho
        · cases ho
        · simp [opens, h] at ho
    case isFalse => nofun
  | cons l2 ls ih =>
    rintro l ⟨bs, i⟩ hl
    rw [Unfinished.readBlocks]
    split
    · refine GocadMesh.bind_ne_diverge (LsoEnds.readBlock_ne _ _ _ _) fun r => ?_
      exact ih l2 _ fun he => by have := hl he; rw [List.getLastD_cons] at this; exact this
    · nofun

theorem gotoKeyword_last {kw x d : Str} (f : File) : gotoKeyword kw f = .ok (x, []) → startsWith (f.getLastD d) kw = true := by
  induction f generalizing d with
  | nil => intro h; cases h
  | cons l ls ih =>
    intro h
    rw [List.getLastD_cons]
    rw [gotoKeyword, gotoKeyword?] at h
    split at h
    case isTrue hl =>
      cases h
      exact hl
    case isFalse => exact ih h

/-- What holds of it: reading a file ends when its last line is finished, and when it is another line than `SURFACE`, `TFACE` and `MODEL`. The full
statement is `Ends`. -/
theorem ends_partial {eol : Bool} {f : File}
    (h : eol = true ∨ opens (f.getLastD []) = false ∧ startsWith (f.getLastD []) cs!"MODEL" = false) : Unfinished.loadLso (D := D) eol f ≠ .diverge := by
  have ho : eol = true ∨ opens (f.getLastD []) = false := h.imp_right And.left
  have hm : eol = true ∨ startsWith (f.getLastD []) cs!"MODEL" = false := h.imp_right And.right
  clear h
  unfold Unfinished.loadLso
  refine GocadMesh.bind_ne_diverge' (LsoEnds.loadFront_ne _ _) ?_
  rintro ⟨name, hd, s, l, g⟩ h0
  have hleft : eol = false → LsoEnds.Left (f.getLastD []) l g := by
    rintro rfl
    exact LsoEnds.loadFront_left h0
  clear h0
  dsimp only
  generalize f.getLastD [] = last at *
  suffices hs : Unfinished.readSurfaces eol s l g ≠ .diverge ∧
      ∀ st l' f', Unfinished.readSurfaces eol s l g = .ok (st, l', f') → eol = false → f'.getLastD l' = last by
    unfold Unfinished.loadModel
    refine GocadMesh.bind_ne_diverge' hs.1 ?_
    rintro ⟨st, l', f'⟩ h1
    refine GocadMesh.bind_ne_diverge (readBlocks_ne ho _ _ _ (hs.2 st l' f' h1)) fun r => ?_
    nofun
  have body : ∀ (l1 : Str) (ls : File), (eol = false → ls.getLastD l1 = last) →
      let r : Res (RState × Str × File) := surfaceLine {} l1 >>= fun o => match o with
        | none => pure ({}, l1, ls)
        | some r => Unfinished.surfacesLoop eol s l1 r ls
      r ≠ .diverge ∧ ∀ st l' f', r = .ok (st, l', f') → eol = false → f'.getLastD l' = last := by
    intro l1 ls hl1
    refine ⟨GocadMesh.bind_ne_diverge (LsoEnds.surfaceLine_ne _ _) fun o => ?_, ?_⟩
    · cases o with
      | none => nofun
      | some r => exact (surfacesLoop_ne ho ls l1 r hl1).1
    · intro st' l' f' h
      obtain ⟨o, _, h2⟩ := bind_eq_ok.1 h
      cases o with
      | none => cases h2; exact hl1
      | some r => exact (surfacesLoop_ne ho ls l1 r hl1).2 st' l' f' h2
  unfold Unfinished.readSurfaces
  cases hM : startsWith l cs!"MODEL" with
  | true =>
    rw [if_pos rfl, ok_bind]
    cases g with
    | nil =>
      cases eol with
      | true => exact ⟨nofun, nofun⟩
      | false =>
        rcases hleft rfl with ⟨_, h⟩ | h
        · rw [hM] at h; cases h
        · rcases hm with hm | hm
          · cases hm
          · have h : l = last := h
            rw [← h, hM] at hm
            cases hm
    | cons l1 ls =>
      refine body l1 ls fun he => ?_
      rcases hleft he with ⟨h, _⟩ | h
      · cases h
      · rw [List.getLastD_cons] at h; exact h
  | false =>
    rw [if_neg (by simp)]
    cases hg : gotoKeyword cs!"MODEL" g with
    | ok r =>
      obtain ⟨x, g'⟩ := r
      rw [ok_bind]
      dsimp only
      rw [show (pure g' : Res File) = .ok g' from rfl, ok_bind]
      cases g' with
      | nil =>
        cases eol with
        | true => exact ⟨nofun, nofun⟩
        | false =>
          have hx := gotoKeyword_last (d := l) g hg
          rcases hleft rfl with ⟨h, _⟩ | h
          · rw [h] at hg; cases hg
          · rcases hm with hm | hm
            · cases hm
            · rw [h, hm] at hx
              cases hx
      | cons l1 ls =>
        refine body l1 ls fun he => ?_
        obtain ⟨u, e⟩ := (gotoKeyword_cut _).suffix hg
        rcases hleft he with ⟨h, _⟩ | h
        · rw [h] at e; simp at e
        · rw [e, LsoEnds.getLastD_suffix] at h; exact h
    | throw => exact ⟨nofun, nofun⟩
    | ub => exact ⟨nofun, nofun⟩
    | diverge => exact absurd hg (LsoEnds.gotoKeyword_ne _ _)

/-- The line `MODEL` matters: after it nothing is read in the string, which still has the line after the tetrahedra, here `TFACE`. -/
example : Unfinished.loadLso (D := Int) false (twoFile.take 23 ++ [cs!"TFACE 1", cs!"MODEL"]) = .diverge := by decide +kernel

example : (∃ l ∈ twoFile.take 24, startsWith l cs!"MODEL" = true) ∧ (∀ l ∈ twoFile.take 23, startsWith l cs!"MODEL" = false) ∧
    opens ((twoFile.take 25).getLastD []) = true ∧ opens ((twoFile.take 24).getLastD []) = false := by decide +kernel

end Verif.Props.LsoCut
