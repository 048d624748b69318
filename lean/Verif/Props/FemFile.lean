import Verif.Model.FemFile
import Verif.Props.FemFeatures

/-!
# Whole FEFLOW files: coordinates, sections and XML of the discrete features
-/

namespace Verif.Props.FemFile

open Verif Verif.Fem Verif.Props.FemRanges Verif.Props.FemValues Verif.Props.FemFeatures

variable {D : Type}

/-! ## Coordinates -/

section Coordinates

variable {K : Type} [DecidableEq K]

theorem coordDist_ok (coords : List K) :
    ((coordDist coords).map Prod.fst).Nodup ∧ (pairs (coordDist coords)).Perm coords.zipIdx := by
  unfold coordDist
  have : ∀ (l : List (K × Nat)) (m : List (K × List Nat)), (m.map Prod.fst).Nodup →
      ((l.foldl (fun m c => push m c.1 c.2) m).map Prod.fst).Nodup ∧ (pairs (l.foldl (fun m c => push m c.1 c.2) m)).Perm (pairs m ++ l) := by
    intro l
    induction l with
    | nil => intro m h; exact ⟨h, by simp⟩
    | cons c l ih =>
      intro m h
      obtain ⟨h1, h2⟩ := ih (push m c.1 c.2) (nodup_push h _ _)
      refine ⟨h1, h2.trans ?_⟩
      refine ((pairs_push m c.1 c.2).append_right _).trans ?_
      simp
  obtain ⟨h1, h2⟩ := this coords.zipIdx [] (by simp)
  exact ⟨h1, h2.trans (by simp [pairs])⟩

theorem insertKey_sorted {le : K → K → Bool} (tot : ∀ a b, le a b || le b a) (tr : ∀ a b c, le a b → le b c → le a c) (k : K) {ks : List K}
    (h : ks.Pairwise fun a b => le a b) : (insertKey le k ks).Pairwise fun a b => le a b := by
  induction ks with
  | nil => simp [insertKey]
  | cons k' ks ih =>
    rw [insertKey]
    split
    · rename_i hk
      rw [List.pairwise_cons] at h ⊢
      refine ⟨?_, List.pairwise_cons.2 h⟩
      intro a ha
      rcases List.mem_cons.1 ha with rfl | ha
      · exact hk
      · exact tr _ _ _ hk (h.1 a ha)
    · rename_i hk
      rw [List.pairwise_cons] at h ⊢
      refine ⟨?_, ih h.2⟩
      intro a ha
      rcases List.mem_cons.1 ((insertKey_perm le k ks).mem_iff.1 ha) with rfl | ha
      · have := tot a k'
        simp only [Bool.or_eq_true] at this
        exact this.resolve_left hk
      · exact h.1 a ha

theorem sortKeys_sorted {le : K → K → Bool} (tot : ∀ a b, le a b || le b a) (tr : ∀ a b c, le a b → le b c → le a c) (ks : List K) :
    (sortKeys le ks).Pairwise fun a b => le a b := by
  induction ks with
  | nil => exact List.Pairwise.nil
  | cons k ks ih => exact insertKey_sorted tot tr k ih

theorem expandAll_singles (l : List Nat) : expandAll (l.map showNat) = some l := by
  induction l with
  | nil => rfl
  | cons n l ih =>
    have e : expand (showNat n) = some [n] := by
      have := expand_token (Nat.le_refl n)
      rw [token, if_pos rfl] at this
      rw [this]
      simp
    rw [List.map_cons, expandAll, e, ih]
    rfl

theorem split_numbers (l : List Nat) : split (l.flatMap fun i => showNat (i + 1) ++ cs!" ") = l.map fun i => showNat (i + 1) := by
  induction l with
  | nil => rfl
  | cons n l ih =>
    rw [List.flatMap_cons, List.append_assoc, List.singleton_append, split_tok_append (isTok_showNat _), ih]
    rfl

theorem split_coordLine {w : Str} (hw : IsTok w) (l : List Nat) :
    split (cs!"     " ++ w ++ cs!"  " ++ l.flatMap fun i => showNat (i + 1) ++ cs!" ") = w :: l.map fun i => showNat (i + 1) := by
  have e1 : cs!"     " ++ w ++ cs!"  " ++ (l.flatMap fun i => showNat (i + 1) ++ cs!" ") =
      ' ' :: ' ' :: ' ' :: ' ' :: ' ' :: (w ++ ' ' :: ' ' :: l.flatMap fun i => showNat (i + 1) ++ cs!" ") := by simp
  rw [e1, split_cons_ws rfl, split_cons_ws rfl, split_cons_ws rfl, split_cons_ws rfl, split_cons_ws rfl, split_tok_append hw, split_cons_ws rfl,
    split_numbers]

/-- The coordinates of the nodes: after the name of the axis each node is listed exactly once, on the line of its own coordinate. -/
theorem coordinates_listed [Num K] [LawfulNum K] (le : K → K → Bool) (name : Str) (coords : List K) :
    ∃ (lines : File) (ps : List (Str × Nat)), writeCoordDist le name coords = name :: lines ∧ readLines lines = some ps ∧
      ps.Perm (coords.zipIdx.map fun v => (Num.fmt v.1, v.2 + 1)) := by
  obtain ⟨h1, h2⟩ := coordDist_ok coords
  refine ⟨_, (sortKeys le ((coordDist coords).map Prod.fst)).flatMap fun v => (getIds (coordDist coords) v).map fun i => (Num.fmt v, i + 1),
    rfl, ?_, ?_⟩
  · rw [← List.flatMap_singleton' (List.map _ _), List.flatMap_map]
    refine readLines_flatMap _ _ _ ?_
    intro v _
    rw [readLines, readLines, readLine, split_coordLine (LawfulNum.fmt_tok v)]
    simp only
    have : (getIds (coordDist coords) v).map (fun i => showNat (i + 1)) = ((getIds (coordDist coords) v).map (· + 1)).map showNat := by
      rw [List.map_map]; rfl
    rw [this, expandAll_singles]
    simp
  · refine ((sortKeys_perm le _).flatMap_right _).trans ?_
    refine List.Perm.trans (List.Perm.of_eq ?_) (h2.map fun v => (Num.fmt v.1, v.2 + 1))
    rw [List.flatMap_map]
    unfold pairs
    rw [List.map_flatMap]
    have : ∀ e ∈ coordDist coords, (getIds (coordDist coords) e.1).map (fun i => (Num.fmt e.1, i + 1)) =
        (e.2.map fun i => (e.1, i)).map fun p => (Num.fmt p.1, p.2 + 1) := by
      intro e he
      rw [get_of_mem h1 he, List.map_map]
      rfl
    clear h1 h2
    revert this
    generalize getIds (coordDist coords) = g
    generalize coordDist coords = m
    intro this
    induction m with
    | nil => rfl
    | cons e m ih =>
      rw [List.flatMap_cons, List.flatMap_cons, this e (by simp), ih fun x hx => this x (by simp [hx])]

/-- The lines of an axis are in increasing order of distinct coordinates. -/
theorem coordinates_sorted [Num K] [LawfulNum K] {le : K → K → Bool} (tot : ∀ a b, le a b || le b a) (tr : ∀ a b c, le a b → le b c → le a c)
    (name : Str) (coords : List K) :
    ∃ (lines : File) (vs : List K), writeCoordDist le name coords = name :: lines ∧ (vs.Pairwise fun a b => le a b) ∧ vs.Nodup ∧
      (∀ v, v ∈ vs ↔ v ∈ coords) ∧ lines.map (fun l => (split l).head?) = vs.map fun v => some (Num.fmt v) := by
  obtain ⟨h1, h2⟩ := coordDist_ok coords
  refine ⟨_, sortKeys le ((coordDist coords).map Prod.fst), rfl, sortKeys_sorted tot tr _, (sortKeys_perm le _).nodup_iff.2 h1, ?_, ?_⟩
  · intro v
    rw [(sortKeys_perm le _).mem_iff]
    constructor
    · intro hv
      obtain ⟨e, he, rfl⟩ := List.mem_map.1 hv
      have hne : e.2 ≠ [] := by
        have key : ∀ (l : List (K × Nat)) (m : List (K × List Nat)), (∀ e ∈ m, e.2 ≠ []) → ∀ e ∈ l.foldl (fun m c => push m c.1 c.2) m, e.2 ≠ [] := by
          have pk : ∀ (m : List (K × List Nat)) (k : K) (i : Nat), (∀ e ∈ m, e.2 ≠ []) → ∀ e ∈ push m k i, e.2 ≠ [] := by
            intro m k i
            induction m with
            | nil => intro _ e he; simp [push] at he; subst he; simp
            | cons x m ih =>
              intro h e he
              obtain ⟨k', l⟩ := x
              rw [push] at he
              split at he
              · rcases List.mem_cons.1 he with rfl | he
                · simp
                · exact h e (by simp [he])
              · rcases List.mem_cons.1 he with rfl | he
                · exact h _ (by simp)
                · exact ih (fun x hx => h x (by simp [hx])) e he
          intro l
          induction l with
          | nil => intro m h; exact h
          | cons c l ih => intro m h; exact ih _ (pk m _ _ h)
        exact key _ [] (by simp) e he
      obtain ⟨i, hi⟩ := List.exists_mem_of_ne_nil _ hne
      have : (e.1, i) ∈ pairs (coordDist coords) := by
        unfold pairs
        rw [List.mem_flatMap]
        exact ⟨e, he, List.mem_map.2 ⟨i, hi, rfl⟩⟩
      exact List.fst_mem_of_mem_zipIdx (h2.mem_iff.1 this)
    · intro hv
      obtain ⟨i, hi⟩ := List.mem_iff_getElem?.1 hv
      have : (v, i) ∈ coords.zipIdx := List.mem_zipIdx_iff_getElem?.2 hi
      have := h2.mem_iff.2 this
      unfold pairs at this
      obtain ⟨e, he, hm⟩ := List.mem_flatMap.1 this
      obtain ⟨_, _, h⟩ := List.mem_map.1 hm
      cases h
      exact List.mem_map_of_mem he
  · rw [List.map_map]
    apply List.map_congr_left
    intro v _
    simp only [Function.comp]
    rw [split_coordLine (LawfulNum.fmt_tok v)]
    rfl

end Coordinates

/-! ## XML: specification -/

/-- A piece of XML: an element, by the text of its start tag and what it holds, or a CDATA section. -/
inductive Xml where
  | elem (head : Str) (kids : List Xml)
  | cdata (text : Str)

/-- The name of an element, from the text of its start tag. -/
def tagName (head : Str) : Str := head.takeWhile fun c => c != ' '

/-- The text of a start tag. -/
def IsHead (head : Str) : Prop := '<' ∉ head ∧ '>' ∉ head ∧ ∃ c r, head = c :: r ∧ c ≠ '/' ∧ c ≠ '!' ∧ c ≠ '?' ∧ c ≠ ' '

/-- The grammar of XML, as far as it is used: blanks, CDATA sections, and elements with their end tags. -/
inductive Content : Str → List Xml → Prop
  | nil : Content [] []
  | blank {c : Char} {s : Str} {xs : List Xml} : isWs c = true → Content s xs → Content (c :: s) xs
  | cdata {t s : Str} {xs : List Xml} : ']' ∉ t → Content s xs → Content (cs!"<![CDATA[" ++ (t ++ (cs!"]]>" ++ s))) (.cdata t :: xs)
  | elem {head inner s : Str} {kids xs : List Xml} : IsHead head → Content inner kids → Content s xs →
      Content ('<' :: (head ++ '>' :: (inner ++ (cs!"</" ++ (tagName head ++ '>' :: s))))) (.elem head kids :: xs)

/-- The number between quotes in a start tag. -/
def count (head : Str) : Option Nat := parseNat (((head.dropWhile fun c => c != '"').drop 1).takeWhile fun c => c != '"')

/-- What the element of a group must be: it announces the number of its features and lists them. -/
def IsGroup (name : Str) (features : List Feature) : Xml → Prop
  | .elem head [.elem h [.cdata t]] => head = cs!"group name=\"" ++ name ++ cs!"\" law=\"darcy\" mode=\"unstructured\"" ∧ tagName h = cs!"elements" ∧
      count h = some features.length ∧ readRanges (textLines t) = some (features.map Feature.id)
  | _ => False

/-- What the element of a section with one line per feature must be. -/
def IsSection (name : Str) (P : List Str → Prop) : Xml → Prop
  | .elem head [.cdata t] => tagName head = name ∧ count head = some (textLines t).length ∧ P (textLines t)
  | _ => False

/-- What the element of a material must be. -/
def IsMaterial [Num D] (id : Str) (es : List (D × List Nat)) : Xml → Prop
  | .elem head [.cdata t] => head = cs!"material id=\"" ++ id ++ cs!"\"" ∧ textLines t = textLines (materialText CHUNK_SIZE es)
  | _ => False

/-! ## XML: grammar -/

theorem Content.append {a b : Str} {xs ys : List Xml} (h : Content a xs) (hb : Content b ys) : Content (a ++ b) (xs ++ ys) := by
  induction h with
  | nil => exact hb
  | blank hc _ ih => exact .blank hc ih
  | cdata ht _ ih =>
    simp only [List.append_assoc, List.cons_append] at ih ⊢
    exact .cdata ht ih
  | elem hh hi _ _ ih =>
    simp only [List.append_assoc, List.cons_append] at ih ⊢
    exact .elem hh hi ih

theorem content_blanks (n : Nat) : Content (blanks n) [] := by
  induction n with
  | zero => exact .nil
  | succ n ih => exact .blank rfl ih

theorem content_nl : Content cs!"\n" [] := .blank rfl .nil

theorem content_elem {n k : Nat} {head name inner : Str} {kids : List Xml} (hh : IsHead head) (hn : tagName head = name) (h : Content inner kids) :
    Content (startTag n head ++ inner ++ endTag k name) [.elem head kids] := by
  subst hn
  have h1 : Content (cs!"\n" ++ inner ++ blanks k) kids := by
    have := (content_nl.append h).append (content_blanks k)
    simpa using this
  have h2 := (content_blanks n).append (Content.elem hh h1 content_nl)
  unfold startTag endTag
  simpa [List.append_assoc] using h2

theorem content_cdata (n : Nat) {t : Str} (h : ']' ∉ t) : Content (blanks n ++ CDATA_START ++ t ++ CDATA_END ++ cs!"\n") [.cdata t] := by
  have := (content_blanks n).append (Content.cdata h content_nl)
  unfold CDATA_START CDATA_END
  simpa [List.append_assoc] using this

theorem not_mem_showNat {c : Char} (h : ∀ d : Nat, d < 10 → digitChar d ≠ c) (n : Nat) : c ∉ showNat n := by
  intro hm
  obtain ⟨d, hd, e⟩ := (showNat_spec n).2.1 _ hm
  exact h d hd e.symm

theorem digit_ne : ∀ d : Nat, d < 10 → digitChar d ≠ ']' ∧ digitChar d ≠ '<' ∧ digitChar d ≠ '>' ∧ digitChar d ≠ '"' := by
  have : ∀ d : Fin 10, digitChar d.val ≠ ']' ∧ digitChar d.val ≠ '<' ∧ digitChar d.val ≠ '>' ∧ digitChar d.val ≠ '"' := by decide
  exact fun d h => this ⟨d, h⟩

/-- The tags with a number. -/
theorem isHead_count {tag : Str} (h : IsHead tag) (n : Nat) : IsHead (tag ++ cs!"=\"" ++ showNat n ++ cs!"\"") := by
  obtain ⟨h1, h2, c, r, rfl, h3⟩ := h
  refine ⟨?_, ?_, c, _, rfl, h3⟩
  · simp only [List.mem_append, not_or]
    exact ⟨⟨⟨h1, by decide⟩, not_mem_showNat (fun d hd => (digit_ne d hd).2.1) n⟩, by decide⟩
  · simp only [List.mem_append, not_or]
    exact ⟨⟨⟨h2, by decide⟩, not_mem_showNat (fun d hd => (digit_ne d hd).2.2.1) n⟩, by decide⟩

theorem count_tag {tag : Str} (h : '"' ∉ tag) (n : Nat) : count (tag ++ cs!"=\"" ++ showNat n ++ cs!"\"") = some n := by
  unfold count
  have e : tag ++ cs!"=\"" ++ showNat n ++ cs!"\"" = (tag ++ cs!"=") ++ '"' :: (showNat n ++ cs!"\"") := by simp
  rw [e, List.dropWhile_append_of_pos, List.dropWhile_cons_of_neg (by simp), List.drop_succ_cons, List.drop_zero, List.takeWhile_append_of_pos]
  · simp [parseNat_showNat]
  · intro c hc
    have : c ≠ '"' := fun e => not_mem_showNat (fun d hd => (digit_ne d hd).2.2.2) n (e ▸ hc)
    simpa using this
  · intro c hc
    rcases List.mem_append.1 hc with hc | hc
    · have : c ≠ '"' := fun e => h (e ▸ hc)
      simpa using this
    · rw [List.mem_singleton] at hc
      subst hc
      rfl

theorem tagName_count {a b : Str} (h : ' ' ∉ a) (n : Nat) : tagName (a ++ ' ' :: b ++ cs!"=\"" ++ showNat n ++ cs!"\"") = a := by
  unfold tagName
  rw [List.append_assoc, List.append_assoc, List.append_assoc, List.takeWhile_append_of_pos, List.cons_append, List.takeWhile_cons_of_neg (by simp)]
  · simp
  · intro c hc
    have : c ≠ ' ' := fun e => h (e ▸ hc)
    simpa using this

/-! ## XML: texts without brackets -/

theorem mem_sepLines {c : Char} {size : Nat} {ls : List Str} : ∀ {i : Nat}, c ∈ sepLines size i ls → c = '\n' ∨ ∃ l ∈ ls, c ∈ l := by
  induction ls with
  | nil => intro i h; simp [sepLines] at h
  | cons l ls ih =>
    intro i h
    rw [sepLines] at h
    rcases List.mem_append.1 h with h | h
    · rcases List.mem_append.1 h with h | h
      · exact Or.inr ⟨l, by simp, h⟩
      · split at h
        · left; simpa using h
        · simp at h
    · rcases ih h with h | ⟨x, hx, hc⟩
      · exact Or.inl h
      · exact Or.inr ⟨x, by simp [hx], hc⟩

theorem token_chars {P : Char → Prop} (hd : ∀ d : Nat, d < 10 → P (digitChar d)) (hm : P '-') (s p : Nat) : ∀ c ∈ token s p, P c := by
  have hn : ∀ n, ∀ c ∈ showNat n, P c := by
    intro n c hc
    obtain ⟨d, h, e⟩ := (showNat_spec n).2.1 _ hc
    rw [e]
    exact hd d h
  intro c hc
  unfold token at hc
  split at hc
  · exact hn s c hc
  · rcases List.mem_append.1 hc with hc | hc
    · exact hn s c hc
    · rcases List.mem_cons.1 hc with hc | hc
      · rw [hc]; exact hm
      · exact hn p c hc

/-- The characters of ranges are digits, dashes and blanks. -/
theorem chunk_chars {P : Char → Prop} (hd : ∀ d : Nat, d < 10 → P (digitChar d)) (hm : P '-') (hs : P ' ') {max : Nat} {ids : List Nat} :
    ∀ l ∈ formatRangeChunks max ids, ∀ c ∈ l, P c := by
  have app : ∀ (st : List Str × Str) (s p : Nat), (∀ l ∈ st.1 ++ [st.2], ∀ c ∈ l, P c) →
      ∀ l ∈ (appendValue max st (token s p)).1 ++ [(appendValue max st (token s p)).2], ∀ c ∈ l, P c := by
    intro st s p h
    have ht := token_chars hd hm s p
    unfold appendValue
    by_cases hc : st.2.length + (token s p).length + 1 > max
    · simp only [hc, if_true, List.nil_append]
      intro l hl
      rcases List.mem_append.1 hl with h' | h'
      · exact h l h'
      · rw [List.mem_singleton] at h'; rw [h']; simpa using ht
    · simp only [hc, if_false]
      intro l hl
      rcases List.mem_append.1 hl with h' | h'
      · exact h l (List.mem_append_left _ h')
      · rw [List.mem_singleton] at h'
        rw [h']
        have := h st.2 (by simp)
        intro c hc
        rcases List.mem_append.1 hc with hc | hc
        · split at hc
          · simp at hc
          · rcases List.mem_append.1 hc with hc | hc
            · exact this c hc
            · rw [List.mem_singleton] at hc; rw [hc]; exact hs
        · exact ht c hc
  have loop : ∀ (es : List Nat) (st : ChunkState), (∀ l ∈ st.results ++ [st.current], ∀ c ∈ l, P c) →
      ∀ l ∈ finish max (es.foldl (chunkStep max) st), ∀ c ∈ l, P c := by
    intro es
    induction es with
    | nil =>
      intro st h l hl
      have := app (st.results, st.current) st.start st.prev h
      rw [List.foldl_nil] at hl
      unfold finish at hl
      dsimp only at hl
      split at hl
      · exact this l (List.mem_append_left _ hl)
      · exact this l hl
    | cons e es ih =>
      intro st h
      rw [List.foldl_cons]
      unfold chunkStep
      split
      · exact ih _ h
      · exact ih ⟨_, _, e, e⟩ (app (st.results, st.current) _ _ h)
  cases ids with
  | nil => simp [formatRangeChunks]
  | cons e es => exact loop es ⟨[], [], e, e⟩ (by simp)

theorem bracket_chunks {max : Nat} {ids : List Nat} : ∀ l ∈ formatRangeChunks max ids, ']' ∉ l := by
  intro l hl hm
  exact chunk_chars (P := fun c => c ≠ ']') (fun d hd => (digit_ne d hd).1) (by decide) (by decide) l hl _ hm rfl

theorem bracket_signatures (fs : Features D) : ']' ∉ cs!"\n" ++ signaturesText fs := by
  have sig : ∀ (n : Nat) (s : Str), ']' ∉ s → ']' ∉ sepLines n 0 (List.replicate n (cs!" " ++ s)) := by
    intro n s hs h
    rcases mem_sepLines h with h | ⟨l, hl, hc⟩
    · revert h; decide
    · rw [(List.mem_replicate.1 hl).2] at hc
      simp [hs] at hc
  unfold signaturesText
  simp only [List.mem_append, not_or]
  exact ⟨by decide, ⟨sig _ _ (by decide), by decide⟩, sig _ _ (by decide)⟩

theorem bracket_incidence (fs : Features D) : ']' ∉ cs!"\n" ++ incidenceText fs := by
  have hn := fun n => not_mem_showNat (fun d hd => (digit_ne d hd).1) n
  have part : ∀ l : List Feature, ']' ∉ sepLines l.length 0 (l.map incidenceLine) := by
    intro l h
    rcases mem_sepLines h with h | ⟨x, hx, hc⟩
    · revert h; decide
    · obtain ⟨f, _, rfl⟩ := List.mem_map.1 hx
      unfold incidenceLine at hc
      rcases List.mem_append.1 hc with hc | hc
      · rcases List.mem_append.1 hc with hc | hc
        · revert hc; decide
        · exact hn _ hc
      · obtain ⟨n, _, hc⟩ := List.mem_flatMap.1 hc
        rcases List.mem_append.1 hc with hc | hc
        · revert hc; decide
        · exact hn _ hc
  unfold incidenceText
  simp only [List.mem_append, not_or]
  exact ⟨by decide, ⟨part _, by decide⟩, part _⟩

theorem bracket_group (g : Group D) : ']' ∉ groupText g := by
  intro h
  rcases mem_sepLines h with h | ⟨x, hx, hc⟩
  · revert h; decide
  · exact bracket_chunks x hx hc

theorem bracket_material [Num D] (hf : ∀ d : D, ']' ∉ Num.fmt d) (max : Nat) : ∀ es : List (D × List Nat), ']' ∉ materialText max es := by
  have text : ∀ (v : D) (c : Str), ']' ∉ c → ']' ∉ List.replicate 14 ' ' ++ Num.fmt v ++ cs!" " ++ c := by
    intro v c hc
    simp only [List.mem_append, not_or]
    exact ⟨⟨⟨by decide, hf v⟩, by decide⟩, hc⟩
  have value : ∀ (last : Bool) (v : D) (ids : List Nat), ']' ∉ materialValue max last v ids := by
    intro last v ids h
    have hb := @bracket_chunks max ids
    unfold materialValue at h
    simp only at h
    split at h
    · rename_i c hc
      rw [hc] at hb
      rcases List.mem_append.1 h with h | h
      · exact text v c (hb c (by simp)) h
      · split at h
        · simp at h
        · revert h; decide
    · split at h
      · obtain ⟨c, hc, h⟩ := List.mem_flatMap.1 h
        exact text v c (hb c hc) h
      · rcases mem_sepLines h with h | ⟨x, hx, hc⟩
        · revert h; decide
        · obtain ⟨c, hc', rfl⟩ := List.mem_map.1 hx
          exact text v c (hb c hc') hc
  intro es
  induction es with
  | nil => rw [materialText]; decide
  | cons e es ih =>
    obtain ⟨v, ids⟩ := e
    cases es with
    | nil =>
      rw [materialText]
      simp only [List.mem_append, not_or]
      exact ⟨value _ _ _, by decide⟩
    | cons e' es =>
      rw [materialText]
      · simp only [List.mem_append, not_or]
        exact ⟨value _ _ _, ih⟩
      · simp

/-! ## XML of the discrete features -/

theorem content_signatures (fs : Features D) : ∃ x, Content (dfeSignatures fs) [x] ∧ IsSection cs!"fep" (fun ls => ls.map split =
    (featuresOf fs.group2).map (fun _ => [cs!"c2d3,darcy"]) ++ (featuresOf fs.group1).map fun _ => [cs!"c1d2,darcy"]) x := by
  have h1 := content_cdata 6 (bracket_signatures fs)
  have h2 := content_elem (n := 4) (k := 4) (name := cs!"fep")
    (isHead_count (tag := cs!"fep count") ⟨by decide, by decide, _, _, rfl, by decide⟩ (nbFeatures fs))
    (tagName_count (a := cs!"fep") (b := cs!"count") (by decide) _) h1
  refine ⟨.elem (cs!"fep count" ++ cs!"=\"" ++ showNat (nbFeatures fs) ++ cs!"\"") [.cdata (cs!"\n" ++ signaturesText fs)], ?_, ?_⟩
  · unfold dfeSignatures countTag
    simpa [List.append_assoc] using h2
  · have e : textLines (cs!"\n" ++ signaturesText fs) = textLines (signaturesText fs) := textLines_append [] _
    have hs := signature_lines fs
    refine ⟨tagName_count (a := cs!"fep") (b := cs!"count") (by decide) _, ?_, ?_⟩
    · rw [count_tag (by decide), e]
      have := congrArg List.length hs
      simp only [List.length_map, List.length_append] at this
      rw [this, nbFeatures, Nat.add_comm]
    · rw [e]
      exact hs

theorem content_incidence (fs : Features D) : ∃ x, Content (dfeIncidence fs) [x] ∧ IsSection cs!"nop" (fun ls => ls.map readIncidence =
    (featuresOf fs.group2 ++ featuresOf fs.group1).map fun f => some f.nodes) x := by
  have h1 := content_cdata 6 (bracket_incidence fs)
  have h2 := content_elem (n := 4) (k := 4) (name := cs!"nop")
    (isHead_count (tag := cs!"nop count") ⟨by decide, by decide, _, _, rfl, by decide⟩ (nbFeatures fs))
    (tagName_count (a := cs!"nop") (b := cs!"count") (by decide) _) h1
  refine ⟨.elem (cs!"nop count" ++ cs!"=\"" ++ showNat (nbFeatures fs) ++ cs!"\"") [.cdata (cs!"\n" ++ incidenceText fs)], ?_, ?_⟩
  · unfold dfeIncidence countTag
    simpa [List.append_assoc] using h2
  · have e : textLines (cs!"\n" ++ incidenceText fs) = textLines (incidenceText fs) := textLines_append [] _
    have hs := incidence_lines fs
    refine ⟨tagName_count (a := cs!"nop") (b := cs!"count") (by decide) _, ?_, ?_⟩
    · rw [count_tag (by decide), e]
      have := congrArg List.length hs
      simp only [List.length_map, List.length_append] at this
      rw [this, nbFeatures, Nat.add_comm]
    · rw [e]
      exact hs

theorem content_group [DecidableEq D] {pos : D → Bool} {sizeName name : Str} {id : Nat} {ks : List (Tagged D)} {g : Group D}
    (hname : '<' ∉ name ∧ '>' ∉ name) (h : GroupOf pos sizeName id ks g) (hid : id + ks.length < NO_ID) :
    ∃ x, Content (dfeGroup name g) [x] ∧ IsGroup name g.features x := by
  have h1 := content_cdata 10 (bracket_group g)
  have h2 := content_elem (n := 8) (k := 8) (name := cs!"elements")
    (isHead_count (tag := cs!"elements count") ⟨by decide, by decide, _, _, rfl, by decide⟩ g.features.length)
    (tagName_count (a := cs!"elements") (b := cs!"count") (by decide) _) h1
  have h3 := content_elem (n := 6) (k := 6) (name := cs!"group") (head := cs!"group name=\"" ++ name ++ cs!"\" law=\"darcy\" mode=\"unstructured\"")
    ⟨by simp [hname.1], by simp [hname.2], _, _, rfl, by decide⟩ rfl h2
  refine ⟨.elem (cs!"group name=\"" ++ name ++ cs!"\" law=\"darcy\" mode=\"unstructured\"")
    [.elem (cs!"elements count" ++ cs!"=\"" ++ showNat g.features.length ++ cs!"\"") [.cdata (groupText g)]], ?_, ?_⟩
  · unfold dfeGroup countTag
    simpa [List.append_assoc] using h3
  · exact ⟨rfl, tagName_count (a := cs!"elements") (b := cs!"count") (by decide) _, count_tag (by decide) _, group_ranges h hid⟩

theorem content_material [Num D] (hf : ∀ d : D, ']' ∉ Num.fmt d) {id : Str} (hid : '<' ∉ id ∧ '>' ∉ id) (es : List (D × List Nat)) :
    ∃ x, Content (dfeMaterial id es) [x] ∧ IsMaterial id es x := by
  have hb : ']' ∉ cs!"\n" ++ materialText CHUNK_SIZE es := by
    simp only [List.mem_append, not_or]
    exact ⟨by decide, bracket_material hf _ es⟩
  have h1 := content_cdata 12 hb
  have h2 := content_elem (n := 10) (k := 10) (name := cs!"material") (head := cs!"material id=\"" ++ id ++ cs!"\"")
    ⟨by simp [hid.1], by simp [hid.2], _, _, rfl, by decide⟩ rfl h1
  refine ⟨.elem (cs!"material id=\"" ++ id ++ cs!"\"") [.cdata (cs!"\n" ++ materialText CHUNK_SIZE es)], ?_, rfl, textLines_append [] _⟩
  unfold dfeMaterial
  simpa [List.append_assoc] using h2

/-- What the section of the discrete features must be. -/
def IsDfe [Num D] [DecidableEq D] (ord : List (D × List Nat) → List (D × List Nat)) (fs : Features D) : Xml → Prop
  | .elem head [fep, nop, .elem h gs, .elem p [.elem fl [.elem mt ms]]] =>
    head = cs!"fractures" ∧ p = cs!"properties" ∧ fl = cs!"flow" ∧ mt = cs!"materials" ∧
    IsSection cs!"fep" (fun ls => ls.map split =
      (featuresOf fs.group2).map (fun _ => [cs!"c2d3,darcy"]) ++ (featuresOf fs.group1).map fun _ => [cs!"c1d2,darcy"]) fep ∧
    IsSection cs!"nop" (fun ls => ls.map readIncidence = (featuresOf fs.group2 ++ featuresOf fs.group1).map fun f => some f.nodes) nop ∧
    tagName h = cs!"groups" ∧ count h = some gs.length ∧
    List.Forall₂ (fun (g : Str × Group D) x => IsGroup g.1 g.2.features x)
      (fs.group2.toList.map (fun g => (cs!"Surface_Feature_LDS", g)) ++ fs.group1.toList.map fun g => (cs!"Edge_Feature_LDS", g)) gs ∧
    ∃ area cond, materials fs = .ok (area, cond) ∧ List.Forall₂ (fun (m : Str × List (D × List Nat)) x => IsMaterial m.1 (ord m.2) x)
      (area.toList.map (fun m => (cs!"AREA", m)) ++ cond.toList.map fun m => (cs!"COND", m)) ms
  | _ => False

/-- What comes before the first element. -/
def dfePrefix : Str := cs!"DFE\n  <?xml version=\"1.0\" encoding=\"utf-8\" standalone=\"no\" ?>\n"

theorem opt_group [DecidableEq D] {pos : D → Bool} {sizeName name : Str} {id : Nat} {ks : List (Tagged D)} {g : Option (Group D)}
    (hname : '<' ∉ name ∧ '>' ∉ name) (h : OptGroup pos sizeName id ks g) (hid : id + ks.length < NO_ID) :
    ∃ xs, Content (optDfeGroup name g) xs ∧ List.Forall₂ (fun (g : Str × Group D) x => IsGroup g.1 g.2.features x)
      (g.toList.map fun g => (name, g)) xs := by
  cases g with
  | none => exact ⟨[], .nil, .nil⟩
  | some g =>
    obtain ⟨x, h1, h2⟩ := content_group hname h.2 hid
    exact ⟨[x], h1, .cons h2 .nil⟩

theorem opt_material [Num D] (hf : ∀ d : D, ']' ∉ Num.fmt d) (ord : List (D × List Nat) → List (D × List Nat)) {id : Str} (hid : '<' ∉ id ∧ '>' ∉ id)
    (o : Option (List (D × List Nat))) :
    ∃ xs, Content (optDfeMaterial ord id o) xs ∧ List.Forall₂ (fun (m : Str × List (D × List Nat)) x => IsMaterial m.1 (ord m.2) x)
      (o.toList.map fun m => (id, m)) xs := by
  cases o with
  | none => exact ⟨[], .nil, .nil⟩
  | some es =>
    obtain ⟨x, h1, h2⟩ := content_material hf hid (ord es)
    exact ⟨[x], h1, .cons h2 .nil⟩

/-- The discrete features are written as one XML element, its tags closed in order, that announces the numbers of features, groups and members and
holds them. -/
theorem dfe_xml [Num D] [DecidableEq D] (hf : ∀ d : D, ']' ∉ Num.fmt d) {neg pos : D → Bool} (ord : List (D × List Nat) → List (D × List Nat))
    {m : Mesh D} {t : Str} (hw : writeDfe neg pos ord m = .ok t) (hsome : m.facets ≠ none ∨ m.edges ≠ none)
    (hid : (keptOf neg m.facets).length + (keptOf neg m.edges).length + 1 < NO_ID) :
    ∃ (fs : Features D) (s : Str) (x : Xml), buildFeatures neg pos m = .ok fs ∧ t = dfePrefix ++ s ∧ Content s [x] ∧ IsDfe ord fs x := by
  unfold writeDfe at hw
  obtain ⟨fs, hb, hw⟩ := Res.bind_eq_ok.1 hw
  have hk2 : ∀ ts, m.facets = some ts → kept neg ts ≠ [] := by
    intro ts hts hk
    rw [no_feature_throws hts hk] at hb
    cases hb
  have hk1 : ∀ ts, m.edges = some ts → kept neg ts ≠ [] := by
    intro ts hts hk
    unfold buildFeatures at hb
    obtain ⟨g2, _, hb⟩ := Res.bind_eq_ok.1 hb
    rw [hts] at hb
    unfold optGroup at hb
    simp only [buildGroup_throw hk] at hb
    cases hb
  obtain ⟨fs', hb', o2, o1⟩ := buildFeatures_ok (pos := pos) hk2 hk1
  rw [hb] at hb'
  cases hb'
  have hne : ¬ fs.group1.toList.length + fs.group2.toList.length = 0 := by
    intro hz
    have z1 : fs.group1 = none := by cases hg : fs.group1 with | none => rfl | some g => simp [hg] at hz
    have z2 : fs.group2 = none := by cases hg : fs.group2 with | none => rfl | some g => simp [hg] at hz
    rw [z1] at o1
    rw [z2] at o2
    rcases hsome with h | h
    · cases hm : m.facets with
      | none => exact h hm
      | some ts => rw [hm] at o2; exact hk2 ts hm o2
    · cases hm : m.edges with
      | none => exact h hm
      | some ts => rw [hm] at o1; exact hk1 ts hm o1
  simp only [hne, if_false] at hw
  obtain ⟨props, hp, hw⟩ := Res.bind_eq_ok.1 hw
  unfold dfeProperties at hp
  obtain ⟨⟨area, cond⟩, hm, hp⟩ := Res.bind_eq_ok.1 hp
  cases hp
  cases hw
  obtain ⟨x1, c1, i1⟩ := content_signatures fs
  obtain ⟨x2, c2, i2⟩ := content_incidence fs
  obtain ⟨g2, c3, i3⟩ := opt_group (name := cs!"Surface_Feature_LDS") (by decide) o2 (by omega)
  obtain ⟨g1, c4, i4⟩ := opt_group (name := cs!"Edge_Feature_LDS") (by decide) o1 (by omega)
  obtain ⟨m2, c5, i5⟩ := opt_material hf ord (id := cs!"AREA") (by decide) area
  obtain ⟨m1, c6, i6⟩ := opt_material hf ord (id := cs!"COND") (by decide) cond
  have hgs : List.Forall₂ (fun (g : Str × Group D) x => IsGroup g.1 g.2.features x)
      (fs.group2.toList.map (fun g => (cs!"Surface_Feature_LDS", g)) ++ fs.group1.toList.map fun g => (cs!"Edge_Feature_LDS", g)) (g2 ++ g1) :=
    List.rel_append i3 i4
  have hlen := hgs.length_eq
  simp only [List.length_append, List.length_map] at hlen
  have d1 := content_elem (n := 4) (k := 4) (name := cs!"groups")
    (isHead_count (tag := cs!"groups count") ⟨by decide, by decide, _, _, rfl, by decide⟩ (fs.group1.toList.length + fs.group2.toList.length))
    (tagName_count (a := cs!"groups") (b := cs!"count") (by decide) _) (c3.append c4)
  have d2 := content_elem (n := 8) (k := 8) (name := cs!"materials") (head := cs!"materials") ⟨by decide, by decide, _, _, rfl, by decide⟩ rfl (c5.append c6)
  have d3 := content_elem (n := 6) (k := 6) (name := cs!"flow") (head := cs!"flow") ⟨by decide, by decide, _, _, rfl, by decide⟩ rfl d2
  have d4 := content_elem (n := 4) (k := 4) (name := cs!"properties") (head := cs!"properties") ⟨by decide, by decide, _, _, rfl, by decide⟩ rfl d3
  have d5 := content_elem (n := 2) (k := 1) (name := cs!"fractures") (head := cs!"fractures") ⟨by decide, by decide, _, _, rfl, by decide⟩ rfl
    (((c1.append c2).append d1).append d4)
  refine ⟨fs, _, _, hb, ?_, d5, ?_⟩
  · unfold dfeHeader dfeGroups countTag dfePrefix
    simp only [List.append_assoc]
    rfl
  · refine ⟨rfl, rfl, rfl, rfl, i1, i2, tagName_count (a := cs!"groups") (b := cs!"count") (by decide) _, ?_, hgs, area, cond, hm, List.rel_append i5 i6⟩
    rw [count_tag (by decide)]
    simp only [List.length_append]
    congr 1
    omega

/-! ## Sections -/

/-- The keywords of the sections of a file. -/
def KEYWORDS : List Str :=
  [cs!"PROBLEM:", cs!"CLASS (v.7.202.18152)", cs!"DIMENS", cs!"SCALE", cs!"VARNODE", cs!"XYZCOOR", cs!"REF_DIS_I", cs!"REF_DISE_I",
    cs!"NODALSETS", cs!"ELEMENTALSETS", cs!"GRAVITY", cs!"DFE", cs!"END"]

/-- The lines of a text that are keywords. -/
def keyLines (t : Str) : List Str := (linesOf t).filter fun l => KEYWORDS.contains l

theorem keyLines_lines {f : File} (h : ∀ l ∈ f, '\n' ∉ l) (r : Str) :
    keyLines (lines f ++ r) = (f.filter fun l => KEYWORDS.contains l) ++ keyLines r := by
  induction f with
  | nil => rfl
  | cons l f ih =>
    have e : lines (l :: f) ++ r = l ++ '\n' :: (lines f ++ r) := by simp [lines]
    have ih' := ih fun x hx => h x (by simp [hx])
    unfold keyLines at ih' ⊢
    rw [e, linesOf_append, linesOf_line (h l (by simp)), List.filter_append, ih', ← List.append_assoc, ← List.filter_append]
    rfl

/-- No line of the text begins with a capital letter. -/
def NoCapital (t : Str) : Prop := ∀ l ∈ linesOf t, ∀ c r, l = c :: r → c.isUpper = false

theorem linesOf_join (a b : Str) : ∃ init last hd tl, linesOf a = init ++ [last] ∧ linesOf b = hd :: tl ∧
    linesOf (a ++ b) = init ++ (last ++ hd) :: tl := by
  induction a with
  | nil =>
    cases hb : linesOf b with
    | nil => exact absurd hb (linesOf_ne b)
    | cons hd tl => exact ⟨[], [], hd, tl, rfl, rfl, by simpa using hb⟩
  | cons c a ih =>
    obtain ⟨init, last, hd, tl, h1, h2, h3⟩ := ih
    by_cases hc : c = '\n'
    · refine ⟨[] :: init, last, hd, tl, ?_, h2, ?_⟩
      · rw [linesOf, if_pos hc, h1]; rfl
      · rw [List.cons_append, linesOf, if_pos hc, h3]; rfl
    · cases init with
      | nil =>
        refine ⟨[], c :: last, hd, tl, ?_, h2, ?_⟩
        · rw [linesOf, if_neg hc, h1]; rfl
        · rw [List.cons_append, linesOf, if_neg hc, h3]; rfl
      | cons i init =>
        refine ⟨(c :: i) :: init, last, hd, tl, ?_, h2, ?_⟩
        · rw [linesOf, if_neg hc, h1]; rfl
        · rw [List.cons_append, linesOf, if_neg hc, h3]; rfl

theorem NoCapital.append {a b : Str} (ha : NoCapital a) (hb : NoCapital b) : NoCapital (a ++ b) := by
  obtain ⟨init, last, hd, tl, h1, h2, h3⟩ := linesOf_join a b
  intro l hl c r e
  rw [h3] at hl
  rcases List.mem_append.1 hl with hl | hl
  · exact ha l (by rw [h1]; simp [hl]) c r e
  · rcases List.mem_cons.1 hl with hl | hl
    · cases last with
      | nil => exact hb hd (by rw [h2]; simp) c r (by rw [← e, hl]; rfl)
      | cons x last =>
        rw [hl, List.cons_append] at e
        cases e
        exact ha (c :: last) (by rw [h1]; simp) c last rfl
    · exact hb l (by rw [h2]; simp [hl]) c r e

theorem noCapital_line {c : Char} {s : Str} (hc : c.isUpper = false) (hn : '\n' ∉ c :: s) : NoCapital (c :: s) := by
  intro l hl x r e
  rw [linesOf_line hn, List.mem_singleton] at hl
  rw [hl] at e
  cases e
  exact hc

theorem noCapital_nil : NoCapital [] := by
  intro l hl x r e
  rw [show linesOf [] = [[]] from rfl, List.mem_singleton] at hl
  rw [hl] at e
  cases e

theorem noCapital_nl : NoCapital cs!"\n" := by
  intro l hl x r e
  rw [show linesOf cs!"\n" = [[], []] from rfl] at hl
  simp only [List.mem_cons, List.not_mem_nil, or_false, or_self] at hl
  rw [hl] at e
  cases e

/-- A text that ends with a line end and has no capital at the beginning of a line has no keyword. -/
theorem keyLines_noCapital {t : Str} (h : NoCapital t) (r : Str) : keyLines (t ++ '\n' :: r) = keyLines r := by
  unfold keyLines
  rw [linesOf_append, List.filter_append]
  have : (linesOf t).filter (fun l => KEYWORDS.contains l) = [] := by
    rw [List.filter_eq_nil_iff]
    intro l hl hk
    have hk : l ∈ KEYWORDS := by simpa using hk
    have key : ∀ k ∈ KEYWORDS, ∃ c r, k = c :: r ∧ c.isUpper = true := by
      intro k hk
      simp only [KEYWORDS, List.mem_cons, List.not_mem_nil, or_false] at hk
      rcases hk with rfl | rfl | rfl | rfl | rfl | rfl | rfl | rfl | rfl | rfl | rfl | rfl | rfl <;> exact ⟨_, _, rfl, by decide⟩
    obtain ⟨c, r', e, hu⟩ := key l hk
    rw [h l hl c r' e] at hu
    cases hu
  rw [this]
  rfl

theorem mem_linesOf {t l : Str} (h : l ∈ linesOf t) {c : Char} (hc : c ∈ l) : c ∈ t := by
  induction t generalizing l with
  | nil => rw [show linesOf [] = [[]] from rfl, List.mem_singleton] at h; rw [h] at hc; simp at hc
  | cons x t ih =>
    rw [linesOf] at h
    split at h
    · rcases List.mem_cons.1 h with h | h
      · rw [h] at hc; simp at hc
      · exact List.mem_cons_of_mem _ (ih h hc)
    · cases hl : linesOf t with
      | nil => exact absurd hl (linesOf_ne t)
      | cons l' ls =>
        rw [hl] at h ih
        simp only [List.mem_cons] at h
        rcases h with h | h
        · rw [h] at hc
          rcases List.mem_cons.1 hc with hc | hc
          · rw [hc]; simp
          · exact List.mem_cons_of_mem _ (ih (by simp) hc)
        · exact List.mem_cons_of_mem _ (ih (by simp [h]) hc)

theorem noCapital_lower {t : Str} (h : ∀ c ∈ t, c.isUpper = false) : NoCapital t := by
  intro l hl c r e
  exact h c (mem_linesOf hl (by rw [e]; simp))

theorem lower_blanks (n : Nat) : ∀ c ∈ blanks n, c.isUpper = false := by
  intro c hc
  rw [(List.mem_replicate.1 hc).2]
  rfl

theorem digit_lower : ∀ d : Nat, d < 10 → (digitChar d).isUpper = false ∧ digitChar d ≠ '\n' := by
  have : ∀ d : Fin 10, (digitChar d.val).isUpper = false ∧ digitChar d.val ≠ '\n' := by decide
  exact fun d h => this ⟨d, h⟩

theorem nl_showNat (n : Nat) : '\n' ∉ showNat n := not_mem_showNat (fun d hd => (digit_lower d hd).2) n

theorem noCapital_startTag (n : Nat) {head : Str} (h : '\n' ∉ head) : NoCapital (startTag n head) := by
  have e : startTag n head = blanks n ++ ('<' :: (head ++ cs!">")) ++ cs!"\n" := by simp [startTag]
  rw [e]
  refine ((noCapital_lower (lower_blanks n)).append (noCapital_line (by decide) ?_)).append noCapital_nl
  simp [h]

theorem noCapital_endTag (n : Nat) {tag : Str} (h : '\n' ∉ tag) : NoCapital (endTag n tag) := by
  have e : endTag n tag = blanks n ++ ('<' :: ('/' :: (tag ++ cs!">"))) ++ cs!"\n" := by simp [endTag]
  rw [e]
  refine ((noCapital_lower (lower_blanks n)).append (noCapital_line (by decide) ?_)).append noCapital_nl
  simp [h]

theorem noCapital_countTag (n k : Nat) {tag : Str} (h : '\n' ∉ tag) : NoCapital (countTag n tag k) := by
  refine noCapital_startTag n ?_
  simp [h, nl_showNat]

theorem noCapital_cdata (n : Nat) {t : Str} (h : NoCapital t) : NoCapital (blanks n ++ CDATA_START ++ t ++ CDATA_END ++ cs!"\n") := by
  refine ((((noCapital_lower (lower_blanks n)).append ?_).append h).append ?_).append noCapital_nl
  · exact noCapital_line (by decide) (by decide)
  · exact noCapital_line (by decide) (by decide)

theorem noCapital_sepLines {ls : List Str} (h : ∀ l ∈ ls, NoCapital l) (size : Nat) : ∀ i : Nat, NoCapital (sepLines size i ls) := by
  induction ls with
  | nil => intro i; exact noCapital_nil
  | cons l ls ih =>
    intro i
    rw [sepLines]
    refine ((h l (by simp)).append ?_).append (ih (fun x hx => h x (by simp [hx])) _)
    split
    · exact noCapital_nl
    · exact noCapital_nil

theorem noCapital_chunk {max : Nat} {ids : List Nat} : ∀ l ∈ formatRangeChunks max ids, NoCapital l := fun l hl =>
  noCapital_lower (chunk_chars (P := fun c => c.isUpper = false) (fun d hd => (digit_lower d hd).1) rfl rfl l hl)

theorem noCapital_signatures (fs : Features D) : NoCapital (signaturesText fs) := by
  have sig : ∀ (n : Nat) (s : Str), NoCapital (cs!" " ++ s) → NoCapital (sepLines n 0 (List.replicate n (cs!" " ++ s))) := by
    intro n s h
    refine noCapital_sepLines ?_ _ _
    intro l hl
    rw [(List.mem_replicate.1 hl).2]
    exact h
  unfold signaturesText
  exact ((sig _ _ (noCapital_line (by decide) (by decide))).append noCapital_nl).append (sig _ _ (noCapital_line (by decide) (by decide)))

theorem noCapital_incidence (fs : Features D) : NoCapital (incidenceText fs) := by
  have part : ∀ l : List Feature, NoCapital (sepLines l.length 0 (l.map incidenceLine)) := by
    intro l
    refine noCapital_sepLines ?_ _ _
    intro x hx
    obtain ⟨f, _, rfl⟩ := List.mem_map.1 hx
    exact noCapital_line (by decide) (line_incidence f).1
  exact ((part _).append noCapital_nl).append (part _)

theorem noCapital_material [Num D] [LawfulNum D] (max : Nat) : ∀ es : List (D × List Nat), NoCapital (materialText max es) := by
  have text : ∀ (v : D) (c : Str), '\n' ∉ c → NoCapital (List.replicate 14 ' ' ++ Num.fmt v ++ cs!" " ++ c) := by
    intro v c hc
    refine noCapital_line (c := ' ') (s := List.replicate 13 ' ' ++ Num.fmt v ++ cs!" " ++ c) (by decide) ?_
    have : '\n' ∉ Num.fmt v := nl_not_mem (LawfulNum.fmt_tok v)
    simp [this, hc, List.mem_replicate]
  have value : ∀ (last : Bool) (v : D) (ids : List Nat), NoCapital (materialValue max last v ids) := by
    intro last v ids
    have hb := @chunk_toks max ids
    unfold materialValue
    simp only
    split
    · rename_i c hc
      rw [hc] at hb
      refine (text v c (hb c (by simp))).append ?_
      split
      · exact noCapital_nil
      · exact noCapital_nl
    · split
      · generalize formatRangeChunks max ids = cs at hb
        induction cs with
        | nil => exact noCapital_nil
        | cons c cs ih =>
          rw [List.flatMap_cons]
          exact (text v c (hb c (by simp))).append (ih fun l hl => hb l (by simp [hl]))
      · refine noCapital_sepLines ?_ _ _
        intro x hx
        obtain ⟨c, hc', rfl⟩ := List.mem_map.1 hx
        exact text v c (hb c hc')
  intro es
  induction es with
  | nil => rw [materialText]; exact noCapital_line (by decide) (by decide)
  | cons e es ih =>
    obtain ⟨v, ids⟩ := e
    cases es with
    | nil =>
      rw [materialText]
      exact (value _ _ _).append (noCapital_line (by decide) (by decide))
    | cons e' es =>
      rw [materialText]
      · exact (value _ _ _).append ih
      · simp

theorem dfe_frame (a b c d r : Str) :
    dfeHeader ++ a ++ b ++ c ++ d ++ endTag 1 cs!"fractures" ++ r = lines [cs!"DFE"] ++ ((blanks 2 ++
      cs!"<?xml version=\"1.0\" encoding=\"utf-8\" standalone=\"no\" ?>" ++ cs!"\n" ++ startTag 2 cs!"fractures" ++ a ++ b ++ c ++ d ++
      (blanks 1 ++ cs!"</" ++ cs!"fractures" ++ cs!">")) ++ '\n' :: r) := by
  simp [dfeHeader, endTag, lines]

/-- The section of the discrete features has no keyword but its own. -/
theorem dfe_keyLines [Num D] [LawfulNum D] [DecidableEq D] {neg pos : D → Bool} {ord : List (D × List Nat) → List (D × List Nat)}
    {m : Mesh D} {t : Str} (hw : writeDfe neg pos ord m = .ok t) (r : Str) :
    keyLines (t ++ r) = (if m.facets = none ∧ m.edges = none then [] else [cs!"DFE"]) ++ keyLines r := by
  unfold writeDfe at hw
  obtain ⟨fs, hb, hw⟩ := Res.bind_eq_ok.1 hw
  have hgroups : fs.group1.toList.length + fs.group2.toList.length = 0 ↔ m.facets = none ∧ m.edges = none := by
    unfold buildFeatures at hb
    obtain ⟨⟨g2, n2⟩, h2, hb⟩ := Res.bind_eq_ok.1 hb
    obtain ⟨⟨g1, n1⟩, h1, hb⟩ := Res.bind_eq_ok.1 hb
    cases hb
    have key : ∀ {name : Str} {id n : Nat} {ts : Option (List (Tagged D))} {g : Option (Group D)}, optGroup neg pos name id ts = .ok (g, n) →
        (g.toList.length = 0 ↔ ts = none) := by
      intro name id n ts g h
      cases ts with
      | none => cases h; simp
      | some ts =>
        unfold optGroup at h
        obtain ⟨r, _, h⟩ := Res.bind_eq_ok.1 h
        cases h
        simp
    have e2 := key h2
    have e1 := key h1
    simp only
    constructor
    · intro h; exact ⟨e2.1 (by omega), e1.1 (by omega)⟩
    · intro h
      have := e2.2 h.1
      have := e1.2 h.2
      omega
  by_cases hz : fs.group1.toList.length + fs.group2.toList.length = 0
  · rw [if_pos hz] at hw
    cases hw
    rw [if_pos (hgroups.1 hz)]
    rfl
  · rw [if_neg hz] at hw
    rw [if_neg fun h => hz (hgroups.2 h)]
    obtain ⟨props, hp, hw⟩ := Res.bind_eq_ok.1 hw
    unfold dfeProperties at hp
    obtain ⟨⟨area, cond⟩, _, hp⟩ := Res.bind_eq_ok.1 hp
    cases hp
    cases hw
    have grp : ∀ (name : Str) (g : Option (Group D)), '\n' ∉ name → NoCapital (optDfeGroup name g) := by
      intro name g hname
      cases g with
      | none => exact noCapital_nil
      | some g =>
        have h1 := noCapital_startTag 6 (head := cs!"group name=\"" ++ name ++ cs!"\" law=\"darcy\" mode=\"unstructured\"") (by simp [hname])
        have h2 := noCapital_countTag 8 g.features.length (tag := cs!"elements count") (by decide)
        have h3 : NoCapital (groupText g) := noCapital_sepLines noCapital_chunk _ _
        have h4 := noCapital_cdata 10 h3
        have h5 := noCapital_endTag 8 (tag := cs!"elements") (by decide)
        have h6 := noCapital_endTag 6 (tag := cs!"group") (by decide)
        have := (((h1.append h2).append h4).append h5).append h6
        unfold optDfeGroup dfeGroup
        simpa only [List.append_assoc] using this
    have mat : ∀ (id : Str) (o : Option (List (D × List Nat))), '\n' ∉ id → NoCapital (optDfeMaterial ord id o) := by
      intro id o hid
      cases o with
      | none => exact noCapital_nil
      | some es =>
        have h1 := noCapital_startTag 10 (head := cs!"material id=\"" ++ id ++ cs!"\"") (by simp [hid])
        have h4 := noCapital_cdata 12 (noCapital_nl.append (noCapital_material (D := D) CHUNK_SIZE (ord es)))
        have h5 := noCapital_endTag 10 (tag := cs!"material") (by decide)
        have := (h1.append h4).append h5
        unfold optDfeMaterial dfeMaterial
        simpa only [List.append_assoc] using this
    have sec : ∀ (tag close t : Str), '\n' ∉ tag → '\n' ∉ close → NoCapital t →
        NoCapital (countTag 4 tag (nbFeatures fs) ++ blanks 6 ++ CDATA_START ++ cs!"\n" ++ t ++ CDATA_END ++ cs!"\n" ++ endTag 4 close) := by
      intro tag close t h1 h2 h3
      have := ((noCapital_countTag 4 (nbFeatures fs) h1).append (noCapital_cdata 6 (noCapital_nl.append h3))).append (noCapital_endTag 4 h2)
      simpa only [List.append_assoc] using this
    have s1 : NoCapital (dfeSignatures fs) := sec _ _ _ (by decide) (by decide) (noCapital_signatures fs)
    have s2 : NoCapital (dfeIncidence fs) := sec _ _ _ (by decide) (by decide) (noCapital_incidence fs)
    have s3 : NoCapital (dfeGroups fs) :=
      (((noCapital_countTag 4 _ (by decide)).append (grp _ _ (by decide))).append (grp _ _ (by decide))).append (noCapital_endTag 4 (by decide))
    have s4 : NoCapital (startTag 4 cs!"properties" ++ startTag 6 cs!"flow" ++ startTag 8 cs!"materials" ++ optDfeMaterial ord cs!"AREA" area ++
        optDfeMaterial ord cs!"COND" cond ++ endTag 8 cs!"materials" ++ endTag 6 cs!"flow" ++ endTag 4 cs!"properties") :=
      (((((((noCapital_startTag 4 (by decide)).append (noCapital_startTag 6 (by decide))).append (noCapital_startTag 8 (by decide))).append
        (mat _ _ (by decide))).append (mat _ _ (by decide))).append (noCapital_endTag 8 (by decide))).append (noCapital_endTag 6 (by decide))).append
        (noCapital_endTag 4 (by decide))
    have s0 : NoCapital (blanks 2 ++ cs!"<?xml version=\"1.0\" encoding=\"utf-8\" standalone=\"no\" ?>" ++ cs!"\n" ++ startTag 2 cs!"fractures") :=
      (((noCapital_lower (lower_blanks 2)).append (noCapital_line (by decide) (by decide))).append noCapital_nl).append (noCapital_startTag 2 (by decide))
    have s5 : NoCapital (blanks 1 ++ cs!"</" ++ cs!"fractures" ++ cs!">") := noCapital_line (by decide) (by decide)
    have all := ((((s0.append s1).append s2).append s3).append s4).append s5
    rw [dfe_frame, keyLines_lines (by decide), keyLines_noCapital all r]
    rfl

/-- A line that is not a keyword. -/
def Plain (l : Str) : Prop := '\n' ∉ l ∧ l ∉ KEYWORDS

theorem plain_blank {s : Str} (h : '\n' ∉ s) : Plain (' ' :: s) := by
  constructor
  · simp [h]
  · simp [KEYWORDS]

theorem keyLines_section {k : Str} {f : File} (hk : k ∈ KEYWORDS) (hf : ∀ l ∈ f, Plain l) (r : Str) :
    keyLines (lines (k :: f) ++ r) = k :: keyLines r := by
  have hk' : '\n' ∉ k := by
    have : ∀ x ∈ KEYWORDS, '\n' ∉ x := by decide
    exact this k hk
  rw [keyLines_lines (by
    intro l hl
    rcases List.mem_cons.1 hl with rfl | hl
    · exact hk'
    · exact (hf l hl).1)]
  have : f.filter (fun l => KEYWORDS.contains l) = [] := by
    rw [List.filter_eq_nil_iff]
    intro l hl h
    exact (hf l hl).2 (by simpa using h)
  rw [List.filter_cons_of_pos (by simpa using hk), this]
  rfl

theorem plain_chunks {ids : List Nat} {value : Str} (h : '\n' ∉ value) (max : Nat) : ∀ l ∈ writeChunks ids value max, Plain l := by
  intro l hl
  obtain ⟨c, hc, rfl⟩ := List.mem_map.1 hl
  have := chunk_toks c hc
  exact plain_blank (s := cs!" " ++ value ++ cs!"  " ++ c ++ cs!" ") (by simp [h, this])

theorem plain_property [DecidableEq D] {toStr : D → Str} {le : D → D → Bool} {n : Nat} {name : Str} {values : List D} {f : File}
    (hs : ∀ v, '\n' ∉ toStr v) (hn : Plain name) (h : writeProperty toStr le n name values = .ok f) : ∀ l ∈ f, Plain l := by
  unfold writeProperty at h
  obtain ⟨dist, _, h⟩ := Res.bind_eq_ok.1 h
  cases h
  intro l hl
  rcases List.mem_cons.1 hl with rfl | hl
  · exact hn
  · obtain ⟨v, _, hl⟩ := List.mem_flatMap.1 hl
    exact plain_chunks (hs v) _ l hl

theorem plain_bodies [DecidableEq D] {toStr : D → Str} {le : D → D → Bool} {n : Nat} (hs : ∀ v, '\n' ∉ toStr v) : ∀ {attrs : List (Attr D)}
    {bodies : List File}, (∀ a ∈ attrs, Plain a.name) → Res.mapM' (fun a => writeProperty toStr le n a.name a.values) attrs = .ok bodies →
    ∀ l ∈ bodies.flatten, Plain l := by
  intro attrs bodies hn h l hl
  obtain ⟨f, hf, hl⟩ := List.mem_flatten.1 hl
  have inv : ∀ {as : List (Attr D)} {r : List File}, Res.mapM' (fun a => writeProperty toStr le n a.name a.values) as = .ok r → f ∈ r →
      ∃ a ∈ as, writeProperty toStr le n a.name a.values = .ok f := by
    intro as
    induction as with
    | nil => intro r h hf; cases h; simp at hf
    | cons a as ih =>
      intro r h hf
      rw [Res.mapM'_cons] at h
      obtain ⟨b, hb, h⟩ := Res.bind_eq_ok.1 h
      obtain ⟨bs, hbs, h⟩ := Res.bind_eq_ok.1 h
      cases h
      rcases List.mem_cons.1 hf with rfl | hf
      · exact ⟨a, by simp, hb⟩
      · obtain ⟨a', h1, h2⟩ := ih hbs hf
        exact ⟨a', by simp [h1], h2⟩
  obtain ⟨a, ha, hw⟩ := inv h hf
  exact plain_property hs (hn a ha) hw l hl

theorem nl_nums (f : Nat → Str) (hf : ∀ n, '\n' ∉ f n) (l : List Nat) : '\n' ∉ l.flatMap f := by
  intro h
  obtain ⟨n, _, h⟩ := List.mem_flatMap.1 h
  exact hf n h

theorem plain_coordDist [Num D] [LawfulNum D] [DecidableEq D] (le : D → D → Bool) {name : Str} (hn : Plain name) (coords : List D) :
    ∀ l ∈ writeCoordDist le name coords, Plain l := by
  intro l hl
  rcases List.mem_cons.1 hl with rfl | hl
  · exact hn
  · obtain ⟨v, _, rfl⟩ := List.mem_map.1 hl
    have h1 : '\n' ∉ Num.fmt v := nl_not_mem (LawfulNum.fmt_tok v)
    have h2 := nl_nums (fun i => showNat (i + 1) ++ cs!" ") (by intro n; simp [nl_showNat]) (getIds (coordDist coords) v)
    exact plain_blank (s := cs!"    " ++ Num.fmt v ++ cs!"  " ++ (getIds (coordDist coords) v).flatMap fun i => showNat (i + 1) ++ cs!" ")
      (by simp only [List.mem_append, not_or]; exact ⟨⟨⟨by decide, h1⟩, by decide⟩, h2⟩)

theorem keys_push {K : Type} [DecidableEq K] (m : List (K × List Nat)) (k : K) (i : Nat) :
    ∀ x ∈ push m k i, x.1 = k ∨ ∃ y ∈ m, y.1 = x.1 := by
  induction m with
  | nil => intro x hx; rw [push, List.mem_singleton] at hx; left; rw [hx]
  | cons e m ih =>
    obtain ⟨k', l⟩ := e
    intro x hx
    rw [push] at hx
    split at hx
    · rename_i h
      rcases List.mem_cons.1 hx with rfl | hx
      · left; exact h
      · right; exact ⟨x, by simp [hx], rfl⟩
    · rcases List.mem_cons.1 hx with rfl | hx
      · right; exact ⟨(k', l), by simp, rfl⟩
      · rcases ih x hx with h | ⟨y, hy, e⟩
        · exact Or.inl h
        · exact Or.inr ⟨y, by simp [hy], e⟩

theorem keys_regions (blocks : List (List Str)) : ∀ x ∈ vertexRegionMap blocks, ∃ b ∈ blocks, x.1 ∈ b := by
  have inner : ∀ (P : Str → Prop) (i : Nat) (b : List Str) (m : List (Str × List Nat)), (∀ n ∈ b, P n) → (∀ x ∈ m, P x.1) →
      ∀ x ∈ b.foldl (fun m name => push m name i) m, P x.1 := by
    intro P i b
    induction b with
    | nil => intro m _ h; exact h
    | cons n b ih =>
      intro m hb hm
      refine ih (push m n i) (fun n hn => hb n (by simp [hn])) ?_
      intro x hx
      rcases keys_push m n i x hx with h | ⟨y, hy, e⟩
      · rw [h]; exact hb n (by simp)
      · rw [← e]; exact hm y hy
  have outer : ∀ (P : Str → Prop) (bs : List (List Str × Nat)) (m : List (Str × List Nat)), (∀ b ∈ bs, ∀ n ∈ b.1, P n) → (∀ x ∈ m, P x.1) →
      ∀ x ∈ bs.foldl (fun m b => b.1.foldl (fun m name => push m name (b.2 + 1)) m) m, P x.1 := by
    intro P bs
    induction bs with
    | nil => intro m _ h; exact h
    | cons b bs ih =>
      intro m hb hm
      exact ih _ (fun b hb' => hb b (by simp [hb'])) (inner P _ _ _ (hb b (by simp)) hm)
  refine outer (fun n => ∃ b ∈ blocks, n ∈ b) _ [] ?_ (by simp)
  intro b hb n hn
  have := List.mem_zipIdx hb
  refine ⟨b.1, ?_, hn⟩
  rw [this.2.2]
  exact List.getElem_mem _

/-- The keywords of a file: those of a mesh without optional parts, and one for each optional part. -/
def expectedKeys (m : Mesh D) : List Str :=
  [cs!"PROBLEM:", cs!"CLASS (v.7.202.18152)", cs!"DIMENS", cs!"SCALE", cs!"VARNODE", cs!"XYZCOOR", cs!"REF_DIS_I", cs!"REF_DISE_I"] ++
    (if m.vertexBlocks.isSome then [cs!"NODALSETS"] else []) ++ (if m.polyhedronBlocks.isSome then [cs!"ELEMENTALSETS"] else []) ++
    [cs!"GRAVITY"] ++ (if m.facets = none ∧ m.edges = none then [] else [cs!"DFE"]) ++ [cs!"END"]

/-- **The sections of a file come once each, in their order, and `END` ends it.**  The full property is this for every mesh; an attribute
with the name of a keyword breaks it (`attribute_named_end`), so that it holds when no written attribute is named as a keyword and no name or
value has an end of line. -/
theorem sections_in_order_partial [Num D] [LawfulNum D] [DecidableEq D] {toStr : D → Str} {le : D → D → Bool} {neg pos : D → Bool}
    {ordS : List (Str × List Nat) → List (Str × List Nat)} {ord : List (D × List Nat) → List (D × List Nat)} {m : Mesh D} {t : Str}
    (hordS : ∀ l, (ordS l).Perm l)
    (hstr : ∀ v, '\n' ∉ toStr v)
    (hattr : ∀ a ∈ nodalAttrs m ++ elementAttrs m, '\n' ∉ a.name ∧ a.name ∉ KEYWORDS)
    (hblocks : ∀ bs, m.vertexBlocks = some bs → ∀ b ∈ bs, ∀ n ∈ b, '\n' ∉ n)
    (h : saveFem toStr le neg pos ordS ord m = .ok t) :
    keyLines t = expectedKeys m := by
  unfold saveFem at h
  obtain ⟨nodes, hnodes, h⟩ := Res.bind_eq_ok.1 h
  obtain ⟨elements, helements, h⟩ := Res.bind_eq_ok.1 h
  obtain ⟨sets, hsets, h⟩ := Res.bind_eq_ok.1 h
  obtain ⟨dfe, hdfe, h⟩ := Res.bind_eq_ok.1 h
  cases h
  simp only [List.append_assoc]
  have hd : '\n' ∉ (cs!" " ++ showNat m.points.length ++ cs!" " ++ showNat m.polyhedra.length ++ cs!" 0 1 0 0 0 0 0 1 0 0 0 0 0 0 0 0") := by
    simp only [List.mem_append, not_or]
    exact ⟨⟨⟨⟨by decide, nl_showNat _⟩, by decide⟩, nl_showNat _⟩, by decide⟩
  have h1 : ∀ r, keyLines (lines (writeHead m) ++ r) = [cs!"PROBLEM:", cs!"CLASS (v.7.202.18152)", cs!"DIMENS", cs!"SCALE"] ++ keyLines r := by
    intro r
    rw [keyLines_lines (by
      intro l hl
      simp only [writeHead, List.mem_cons, List.not_mem_nil, or_false] at hl
      rcases hl with rfl | rfl | rfl | rfl | rfl | rfl | rfl
      · decide
      · decide
      · decide
      · decide
      · exact hd
      · decide
      · decide)]
    congr 1
  have h2 : ∀ r, keyLines (lines (writeVarNode m) ++ r) = cs!"VARNODE" :: keyLines r := by
    intro r
    refine keyLines_section (by decide) ?_ r
    intro l hl
    rcases List.mem_cons.1 hl with rfl | hl
    · exact plain_blank (s := showNat m.polyhedra.length ++ cs!" 4 4") (by
        simp only [List.mem_append, not_or]; exact ⟨nl_showNat _, by decide⟩)
    · obtain ⟨vs, _, rfl⟩ := List.mem_map.1 hl
      refine plain_blank (s := cs!"6 " ++ vs.flatMap fun v => showNat (v + 1) ++ cs!" ") ?_
      simp only [List.mem_append, not_or]
      exact ⟨by decide, nl_nums _ (by intro n; simp [nl_showNat]) vs⟩
  have h3 : ∀ r, keyLines (lines (writeNodeCoordinates m) ++ r) = cs!"XYZCOOR" :: keyLines r := by
    intro r
    refine keyLines_section (by decide) ?_ r
    intro l hl
    obtain ⟨p, _, rfl⟩ := List.mem_map.1 hl
    refine plain_blank (s := Num.fmt p.x ++ cs!", " ++ Num.fmt p.y ++ cs!", " ++ Num.fmt p.z) ?_
    have hf : ∀ v : D, '\n' ∉ Num.fmt v := fun v => nl_not_mem (LawfulNum.fmt_tok v)
    simp only [List.mem_append, not_or]
    exact ⟨⟨⟨⟨hf _, by decide⟩, hf _⟩, by decide⟩, hf _⟩
  have h4 : ∀ r, keyLines (lines nodes ++ r) = cs!"REF_DIS_I" :: keyLines r := by
    intro r
    unfold writeRefNodalDist at hnodes
    obtain ⟨bodies, hb, hn⟩ := Res.bind_eq_ok.1 hnodes
    cases hn
    refine keyLines_section (by decide) ?_ r
    intro l hl
    simp only [List.mem_cons, List.mem_append] at hl
    rcases hl with rfl | ((hl | hl) | hl) | hl
    · refine plain_blank (s := showNat (3 + (nodalAttrs m).length) ++ cs!", " ++ showNat m.points.length ++ cs!", 0") ?_
      simp only [List.mem_append, not_or]
      exact ⟨⟨⟨nl_showNat _, by decide⟩, nl_showNat _⟩, by decide⟩
    · exact plain_coordDist le ⟨by decide, by decide⟩ _ l hl
    · exact plain_coordDist le ⟨by decide, by decide⟩ _ l hl
    · exact plain_coordDist le ⟨by decide, by decide⟩ _ l hl
    · exact plain_bodies hstr (fun a ha => hattr a (by simp [ha])) hb l hl
  have h5 : ∀ r, keyLines (lines elements ++ r) = cs!"REF_DISE_I" :: keyLines r := by
    intro r
    unfold writeRefElementDist at helements
    obtain ⟨bodies, hb, hn⟩ := Res.bind_eq_ok.1 helements
    cases hn
    refine keyLines_section (by decide) ?_ r
    intro l hl
    rcases List.mem_cons.1 hl with rfl | hl
    · refine plain_blank (s := showInt (nbElemAtt m) ++ cs!", " ++ showNat m.polyhedra.length ++ cs!", 0") ?_
      have hi : ∀ i : Int, '\n' ∉ showInt i := by
        intro i
        cases i <;> simp [showInt, nl_showNat]
      simp only [List.mem_append, not_or]
      exact ⟨⟨⟨hi _, by decide⟩, nl_showNat _⟩, by decide⟩
    · exact plain_bodies hstr (fun a ha => hattr a (by simp [ha])) hb l hl
  have h6 : ∀ r, keyLines (lines (writeNodalSets ordS m) ++ r) = (if m.vertexBlocks.isSome then [cs!"NODALSETS"] else []) ++ keyLines r := by
    intro r
    unfold writeNodalSets
    cases hv : m.vertexBlocks with
    | none => rfl
    | some bs =>
      refine keyLines_section (by decide) ?_ r
      intro l hl
      obtain ⟨x, hx, hl⟩ := List.mem_flatMap.1 hl
      obtain ⟨b, hb, hn⟩ := keys_regions bs x ((hordS _).subset hx)
      exact plain_chunks (hblocks bs hv b hb _ hn) _ l hl
  have h7 : ∀ r, keyLines (lines sets ++ r) = (if m.polyhedronBlocks.isSome then [cs!"ELEMENTALSETS"] else []) ++ keyLines r := by
    intro r
    unfold writeElementSets at hsets
    cases hv : m.polyhedronBlocks with
    | none => rw [hv] at hsets; cases hsets; rfl
    | some bs =>
      rw [hv] at hsets
      cases bs with
      | nil =>
        cases hsets
        rw [(hordS []).eq_nil]
        exact keyLines_section (by decide) (by simp) r
      | cons b bs => cases hsets
  have h8 : ∀ r, keyLines (lines [cs!"GRAVITY", cs!" 0 0 -1"] ++ r) = cs!"GRAVITY" :: keyLines r := by
    intro r
    exact keyLines_section (by decide) (by intro l hl; rw [List.mem_singleton] at hl; rw [hl]; exact plain_blank (by decide)) r
  have h9 : keyLines (lines [cs!"END"]) = [cs!"END"] := by decide
  rw [h1, h2, h3, h4, h5, h6, h7, h8, dfe_keyLines hdfe, h9]
  simp [expectedKeys]

/-- The parameters of a concrete file. -/
def saveInt (m : Mesh Int) : Res Str :=
  saveFem (fun v => showInt v) (fun a b => decide (a ≤ b)) (fun v => decide (v < 0)) (fun v => decide (0 < v)) id id m

/-- One tetrahedron with an attribute, block names of the vertices, a facet and an edge. -/
def mesh3 : Mesh Int where
  points := [⟨0, 0, 0⟩, ⟨1, 0, 0⟩, ⟨0, 1, 0⟩, ⟨0, 0, 1⟩]
  polyhedra := [[0, 1, 2, 3]]
  vertexAttrs := []
  polyhedronAttrs := [⟨cs!"porosity", true, [7]⟩]
  vertexBlocks := some [[cs!"a"], [cs!"b", cs!"a"], [], [cs!"a"]]
  facets := some [⟨[0, 1, 2], 5, 3⟩]

example : ∃ t, saveInt mesh3 = .ok t ∧ keyLines t = [cs!"PROBLEM:", cs!"CLASS (v.7.202.18152)", cs!"DIMENS", cs!"SCALE", cs!"VARNODE",
    cs!"XYZCOOR", cs!"REF_DIS_I", cs!"REF_DISE_I", cs!"NODALSETS", cs!"GRAVITY", cs!"DFE", cs!"END"] := by
  refine ⟨_, rfl, ?_⟩
  decide +kernel

/-- **An attribute named `END` puts an end in the middle of the file**, before the gravity. -/
theorem attribute_named_end : ∃ t, saveInt { mesh3 with polyhedronAttrs := [⟨cs!"END", true, [7]⟩], vertexBlocks := none, facets := none } = .ok t ∧
    keyLines t = [cs!"PROBLEM:", cs!"CLASS (v.7.202.18152)", cs!"DIMENS", cs!"SCALE", cs!"VARNODE",
      cs!"XYZCOOR", cs!"REF_DIS_I", cs!"REF_DISE_I", cs!"END", cs!"GRAVITY", cs!"END"] := by
  refine ⟨_, rfl, ?_⟩
  decide +kernel

/-! ## Dimensions -/

theorem linesOf_lines {f : File} (h : ∀ l ∈ f, '\n' ∉ l) (r : Str) : linesOf (lines f ++ r) = f ++ linesOf r := by
  induction f with
  | nil => rfl
  | cons l f ih =>
    have e : lines (l :: f) ++ r = l ++ '\n' :: (lines f ++ r) := by simp [lines]
    rw [e, linesOf_append, linesOf_line (h l (by simp)), ih fun x hx => h x (by simp [hx])]
    rfl

/-- **The line after `DIMENS` announces the numbers of nodes and of elements.** -/
theorem dimensions_announced [Num D] [DecidableEq D] {toStr : D → Str} {le : D → D → Bool} {neg pos : D → Bool}
    {ordS : List (Str × List Nat) → List (Str × List Nat)} {ord : List (D × List Nat) → List (D × List Nat)} {m : Mesh D} {t : Str}
    (h : saveFem toStr le neg pos ordS ord m = .ok t) :
    ∃ before line after, linesOf t = before ++ cs!"DIMENS" :: line :: after ∧ cs!"DIMENS" ∉ before ∧
      ((split line).take 2).map parseNat = [some m.points.length, some m.polyhedra.length] := by
  unfold saveFem at h
  obtain ⟨nodes, hnodes, h⟩ := Res.bind_eq_ok.1 h
  obtain ⟨elements, helements, h⟩ := Res.bind_eq_ok.1 h
  obtain ⟨sets, hsets, h⟩ := Res.bind_eq_ok.1 h
  obtain ⟨dfe, hdfe, h⟩ := Res.bind_eq_ok.1 h
  cases h
  simp only [List.append_assoc]
  have hd : '\n' ∉ (cs!" " ++ showNat m.points.length ++ cs!" " ++ showNat m.polyhedra.length ++ cs!" 0 1 0 0 0 0 0 1 0 0 0 0 0 0 0 0") := by
    simp only [List.mem_append, not_or]
    exact ⟨⟨⟨⟨by decide, nl_showNat _⟩, by decide⟩, nl_showNat _⟩, by decide⟩
  rw [linesOf_lines (by
    intro l hl
    simp only [writeHead, List.mem_cons, List.not_mem_nil, or_false] at hl
    rcases hl with rfl | rfl | rfl | rfl | rfl | rfl | rfl
    · decide
    · decide
    · decide
    · decide
    · exact hd
    · decide
    · decide)]
  refine ⟨[cs!"PROBLEM:", cs!"CLASS (v.7.202.18152)", cs!"   0    0    0    3    0    0    8    8    0    0"], _, _, rfl, by decide, ?_⟩
  have e : split (cs!" " ++ showNat m.points.length ++ cs!" " ++ showNat m.polyhedra.length ++ cs!" 0 1 0 0 0 0 0 1 0 0 0 0 0 0 0 0") =
      showNat m.points.length :: showNat m.polyhedra.length :: split cs!"0 1 0 0 0 0 0 1 0 0 0 0 0 0 0 0" := by
    rw [List.append_assoc, List.append_assoc, List.append_assoc, List.singleton_append, split_cons_ws rfl, List.singleton_append,
      split_tok_append (isTok_showNat _)]
    exact congrArg _ (split_tok_append (isTok_showNat _) cs!"0 1 0 0 0 0 0 1 0 0 0 0 0 0 0 0")
  rw [e]
  simp [parseNat_showNat]

example : ∃ t, saveInt mesh3 = .ok t ∧ (linesOf t)[4]? = some cs!" 4 1 0 1 0 0 0 0 0 1 0 0 0 0 0 0 0 0" := by
  refine ⟨_, rfl, ?_⟩
  decide +kernel

/-! ## Examples -/

example : writeCoordDist (fun a b : Int => decide (a ≤ b)) cs!"X" [5, 2, 5] = [cs!"X", cs!"     2  2 ", cs!"     5  1 3 "] := by decide +kernel

example : (∀ d : Int, ']' ∉ Num.fmt d) ∧ (mesh3.facets ≠ none ∨ mesh3.edges ≠ none) ∧
    ∃ t, writeDfe (fun v : Int => decide (v < 0)) (fun v => decide (0 < v)) id mesh3 = .ok t := by
  refine ⟨?_, Or.inl (by decide), _, rfl⟩
  intro d
  have h : ∀ n, ']' ∉ showNat n := not_mem_showNat fun d hd => (digit_ne d hd).1
  change ']' ∉ showInt d
  cases d <;> simp [showInt, h]

end Verif.Props.FemFile
