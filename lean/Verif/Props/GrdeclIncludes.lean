import Verif.Props.GrdeclText
import Verif.Lemmas.LsoSolid

/-!
# Included files of a corner point grid
-/

set_option linter.unusedSectionVars false

namespace Verif.Props.GrdeclIncludes

open Verif Verif.Grdecl Verif.Props.GrdeclCells Verif.Props.GrdeclText Verif.Props.GocadTruncated

/-! ## Specification -/

/-- The lines that follow an `INCLUDE` line. -/
inductive Includes : File → List Str → Prop
  | nil : Includes [] []
  | skip {l f ls} : startsWith l cs!"INCLUDE" = false → Includes f ls → Includes (l :: f) ls
  | take {i l f ls} : startsWith i cs!"INCLUDE" = true → Includes f ls → Includes (i :: l :: f) (l :: ls)
  | cut {i} : startsWith i cs!"INCLUDE" = true → Includes [i] []

/-- The line has the key: it is just before a dot, and just after an underscore or at the beginning of the line. -/
def HasKey (line key : Str) : Prop :=
  ∃ a b, line = a ++ key ++ '.' :: b ∧ '_' ∉ key ∧ '.' ∉ key ∧ (a = [] ∨ ∃ a', a = a' ++ ['_'])

/-- The first word of the line, without its first and last characters, is the name. -/
def HasName (line name : Str) : Prop := ∃ t ts, split line = t :: ts ∧ name = (t.drop 1).take (t.length - 2)

/-! ## Pieces of a line -/

theorem splitOn_notin {c : Char} {s : Str} (h : c ∉ s) : splitOn c s = [s] := by
  induction s with
  | nil => rfl
  | cons a s ih =>
    rw [List.mem_cons, not_or] at h
    rw [splitOn, if_neg (Ne.symm h.1), ih h.2]

theorem splitOn_append {c : Char} {u : Str} (r : Str) (h : c ∉ u) : splitOn c (u ++ c :: r) = u :: splitOn c r := by
  induction u with
  | nil => rw [List.nil_append, splitOn, if_pos rfl]
  | cons a s ih =>
    rw [List.mem_cons, not_or] at h
    rw [List.cons_append, splitOn, if_neg (Ne.symm h.1), ih h.2]

theorem contains_char {c : Char} : ∀ {s : Str}, contains [c] s = true ↔ c ∈ s := by
  intro s
  constructor
  · intro h
    by_cases hc : c ∈ s
    · exact hc
    · rw [Lso.contains_false (List.mem_singleton.2 rfl) hc] at h
      cases h
  · intro h
    obtain ⟨a, b, rfl⟩ := List.append_of_mem h
    exact Lso.contains_append _ _ _ (Lso.contains_prefix [c] b)

theorem includeKey_iff {piece k : Str} : includeKey piece = some k ↔ ∃ b, piece = k ++ '.' :: b ∧ '.' ∉ k := by
  unfold includeKey
  constructor
  · intro h
    split at h
    · rename_i hc
      obtain ⟨a, b, e, hn⟩ := List.eq_append_cons_of_mem (contains_char.1 hc)
      rw [e, splitOn_append b hn] at h
      cases h
      exact ⟨b, e, hn⟩
    · cases h
  · rintro ⟨b, e, hn⟩
    rw [if_pos (contains_char.2 (by rw [e]; simp)), e, splitOn_append b hn]
    rfl

theorem hasKey_cons {u r k : Str} (hu : '_' ∉ u) : HasKey (u ++ '_' :: r) k ↔ (∃ b, u = k ++ '.' :: b ∧ '.' ∉ k) ∨ HasKey r k := by
  constructor
  · rintro ⟨a, b, e, h1, h2, rfl | ⟨a', rfl⟩⟩
    · left
      rw [List.nil_append] at e
      rcases List.append_eq_append_iff.1 e with ⟨t, e1, e2⟩ | ⟨t, e1, e2⟩
      · cases t with
        | nil => simp at e2
        | cons x t =>
          rw [List.cons_append] at e2
          injection e2 with e2 _
          exact absurd (by rw [e1, ← e2]; simp) h1
      · cases t with
        | nil => simp at e2
        | cons x t =>
          rw [List.cons_append] at e2
          injection e2 with e2 _
          exact ⟨t, by rw [e1, ← e2], h2⟩
    · right
      rw [List.append_assoc, List.append_assoc] at e
      rcases List.append_eq_append_iff.1 e with ⟨t, e1, e2⟩ | ⟨t, e1, e2⟩
      · cases t with
        | nil =>
          simp only [List.nil_append, List.singleton_append] at e2
          injection e2 with _ e2
          exact ⟨[], b, by rw [e2, List.nil_append], h1, h2, .inl rfl⟩
        | cons x t =>
          rw [List.cons_append] at e2
          injection e2 with _ e2
          exact ⟨t ++ ['_'], b, by rw [e2]; simp, h1, h2, .inr ⟨t, rfl⟩⟩
      · cases t with
        | nil =>
          simp only [List.nil_append, List.singleton_append] at e2
          injection e2 with _ e2
          exact ⟨[], b, by rw [← e2, List.nil_append], h1, h2, .inl rfl⟩
        | cons x t =>
          have e2 : '_' :: (k ++ '.' :: b) = x :: (t ++ '_' :: r) := e2
          injection e2 with e2 _
          exact absurd (by rw [e1, ← e2]; simp) hu
  · rintro (⟨b, e, h2⟩ | ⟨a, b, e, h1, h2, ha⟩)
    · exact ⟨[], b ++ '_' :: r, by rw [e]; simp, fun h => hu (by rw [e]; simp [h]), h2, .inl rfl⟩
    · refine ⟨u ++ '_' :: a, b, by rw [e]; simp, h1, h2, .inr ?_⟩
      rcases ha with rfl | ⟨a', rfl⟩
      · exact ⟨u, rfl⟩
      · exact ⟨u ++ '_' :: a', by simp⟩

theorem hasKey_last {u k : Str} (hu : '_' ∉ u) : HasKey u k ↔ ∃ b, u = k ++ '.' :: b ∧ '.' ∉ k := by
  constructor
  · rintro ⟨a, b, e, h1, h2, rfl | ⟨a', rfl⟩⟩
    · exact ⟨b, e, h2⟩
    · exact absurd (by rw [e]; simp) hu
  · rintro ⟨b, e, h2⟩
    exact ⟨[], b, e, fun h => hu (by rw [e]; simp [h]), h2, .inl rfl⟩

theorem mem_keys : ∀ (n : Nat) {s k : Str}, s.length ≤ n → (k ∈ (splitOn '_' s).filterMap includeKey ↔ HasKey s k) := by
  intro n
  induction n with
  | zero =>
    intro s k h
    have : s = [] := List.length_eq_zero_iff.1 (by omega)
    subst this
    rw [splitOn_notin (by simp), hasKey_last (by simp)]
    simp [includeKey_iff]
  | succ n ih =>
    intro s k h
    by_cases hc : '_' ∈ s
    · obtain ⟨u, r, rfl, hn⟩ := List.eq_append_cons_of_mem hc
      rw [splitOn_append r hn, hasKey_cons hn, ← ih (s := r) (by simp at h; omega)]
      simp only [List.mem_filterMap, List.mem_cons, exists_eq_or_imp, includeKey_iff]
    · rw [splitOn_notin hc, hasKey_last hc]
      simp only [List.mem_filterMap, List.mem_singleton, exists_eq_left, includeKey_iff]

/-! ## Lines of inclusions -/

theorem split_ne_nil {s : Str} {c : Char} (hc : c ∈ s) (hw : isWs c = false) : split s ≠ [] := by
  induction s with
  | nil => cases hc
  | cons a s ih =>
    unfold split
    by_cases ha : isWs a = true
    · rcases List.mem_cons.1 hc with rfl | hc
      · rw [hw] at ha; cases ha
      · simp only [ha, if_true]; exact ih hc
    · rw [if_neg ha]
      split
      · simp
      · split
        · simp
        · split <;> simp

theorem includeLine_ok (l : Str) : ∃ r, includeLine l = .ok r ∧ ∀ k n, (k, n) ∈ r ↔ HasKey l k ∧ HasName l n := by
  unfold includeLine
  have hmem : ∀ k, k ∈ (splitOn '_' l).filterMap includeKey ↔ HasKey l k := fun k => mem_keys l.length (Nat.le_refl _)
  generalize (splitOn '_' l).filterMap includeKey = ks at hmem
  cases hs : split l with
  | nil =>
    have hno : ks = [] := by
      rcases ks with _ | ⟨k, ks⟩
      · rfl
      · obtain ⟨a, b, e, _⟩ := (hmem k).1 List.mem_cons_self
        exact absurd hs (split_ne_nil (c := '.') (by rw [e]; simp) (by decide))
    subst hno
    refine ⟨[], rfl, ?_⟩
    intro k n
    constructor
    · intro h; cases h
    · rintro ⟨h, _⟩; exact absurd ((hmem k).2 h) (by simp)
  | cons t ts =>
    have he : ∀ ks : List Str, Res.mapM' (fun k => (do
        let t ← Res.index (t :: ts) 0
        pure (k, (t.drop 1).take (t.length - 2)) : Res (Str × Str))) ks = .ok (ks.map fun k => (k, (t.drop 1).take (t.length - 2))) := by
      intro ks
      induction ks with
      | nil => rfl
      | cons k ks ih =>
        rw [Res.mapM', ih]
        rfl
    refine ⟨_, he ks, ?_⟩
    intro k n
    rw [List.mem_map]
    constructor
    · rintro ⟨k', hk, e⟩
      cases e
      exact ⟨(hmem k).1 hk, t, ts, hs, rfl⟩
    · rintro ⟨hk, t', ts', e, rfl⟩
      rw [hs] at e
      cases e
      exact ⟨k, (hmem k).2 hk, rfl⟩

theorem includes_exist : ∀ (n : Nat) (f : File), f.length ≤ n → ∃ ls, Includes f ls := by
  intro n
  induction n with
  | zero => intro f h; rw [List.length_eq_zero_iff.1 (by omega : f.length = 0)]; exact ⟨[], .nil⟩
  | succ n ih =>
    intro f h
    cases f with
    | nil => exact ⟨[], .nil⟩
    | cons l f =>
      cases hl : startsWith l cs!"INCLUDE" with
      | false => obtain ⟨ls, hls⟩ := ih f (by simp at h; omega); exact ⟨ls, .skip hl hls⟩
      | true =>
        cases f with
        | nil => exact ⟨[], .cut hl⟩
        | cons l' f => obtain ⟨ls, hls⟩ := ih f (by simp at h; omega); exact ⟨l' :: ls, .take hl hls⟩

/-- The entries of several lines, in order. -/
inductive Entries : List Str → List (Str × Str) → Prop
  | nil : Entries [] []
  | cons {l ls r rs} : (∀ k n, (k, n) ∈ r ↔ HasKey l k ∧ HasName l n) → Entries ls rs → Entries (l :: ls) (r ++ rs)

theorem includesLoop_ok {f : File} {ls : List Str} (h : Includes f ls) : ∃ rs, includesLoop false f = .ok rs ∧ Entries ls rs := by
  induction h with
  | nil => exact ⟨[], rfl, .nil⟩
  | @skip l f ls hl _ ih =>
    obtain ⟨rs, h1, h2⟩ := ih
    exact ⟨rs, by rw [includesLoop, hl]; exact h1, h2⟩
  | @take i l f ls hi _ ih =>
    obtain ⟨rs, h1, h2⟩ := ih
    obtain ⟨r, h3, h4⟩ := includeLine_ok l
    refine ⟨r ++ rs, ?_, .cons h4 h2⟩
    rw [includesLoop, hi, includesLoop, h3, Res.ok_bind, h1]
    rfl
  | @cut i hi => exact ⟨[], by rw [includesLoop, hi]; rfl, .nil⟩

theorem fileOf_append (a b : List (Str × Str)) (key : Str) : fileOf (a ++ b) key = (fileOf b key).or (fileOf a key) := by
  unfold fileOf
  rw [List.reverse_append, List.find?_append]
  cases b.reverse.find? fun p => p.1 = key <;> rfl

theorem fileOf_some {m : List (Str × Str)} {key n : Str} (h : fileOf m key = some n) : (key, n) ∈ m := by
  unfold fileOf at h
  cases hf : m.reverse.find? fun p => p.1 = key with
  | none => rw [hf] at h; cases h
  | some p =>
    rw [hf] at h
    cases h
    have h1 := List.mem_of_find?_eq_some hf
    have h2 := List.find?_some hf
    simp only [decide_eq_true_eq] at h2
    rw [← h2]
    exact List.mem_reverse.1 h1

theorem fileOf_none {m : List (Str × Str)} {key : Str} (h : fileOf m key = none) : ∀ n, (key, n) ∉ m := by
  unfold fileOf at h
  rw [Option.map_eq_none_iff, List.find?_eq_none] at h
  intro n hn
  have := h (key, n) (List.mem_reverse.2 hn)
  simp at this

/-- The file of a section is the one named by the last inclusion that has the key of the section. -/
def LastNamed (ls : List Str) (key name : Str) : Prop :=
  ∃ u l v, ls = u ++ l :: v ∧ HasKey l key ∧ HasName l name ∧ ∀ l' ∈ v, ¬ HasKey l' key

theorem HasKey.hasName {l k : Str} (h : HasKey l k) : ∃ n, HasName l n := by
  obtain ⟨a, b, e, _⟩ := h
  cases hs : split l with
  | nil => exact absurd hs (split_ne_nil (c := '.') (by rw [e]; simp) (by decide))
  | cons t ts => exact ⟨_, t, ts, hs, rfl⟩

theorem fileOf_entries {ls : List Str} {rs : List (Str × Str)} (h : Entries ls rs) (key : Str) :
    (∃ n, fileOf rs key = some n ∧ LastNamed ls key n) ∨ (fileOf rs key = none ∧ ∀ l ∈ ls, ¬ HasKey l key) := by
  induction h with
  | nil => right; exact ⟨rfl, by simp⟩
  | @cons l ls r rs hr _ ih =>
    rw [fileOf_append]
    rcases ih with ⟨n, h1, u, l', v, rfl, h2, h3, h4⟩ | ⟨h1, h2⟩
    · left
      exact ⟨n, by rw [h1]; rfl, l :: u, l', v, rfl, h2, h3, h4⟩
    · rw [h1]
      cases hf : fileOf r key with
      | some n =>
        left
        obtain ⟨h3, h4⟩ := (hr key n).1 (fileOf_some hf)
        exact ⟨n, rfl, [], l, ls, rfl, h3, h4, h2⟩
      | none =>
        right
        refine ⟨rfl, ?_⟩
        intro l' hl'
        rcases List.mem_cons.1 hl' with rfl | hl'
        · intro hk
          obtain ⟨n, hn⟩ := hk.hasName
          exact fileOf_none hf n ((hr key n).2 ⟨hk, hn⟩)
        · exact h2 l' hl'

section
variable {D : Type} [Num D] [Add D] [Sub D] [Mul D] [Div D] [One D]

/-- The file named for a section, if any. -/
def NamedFor (ls : List Str) (key : Str) : Option Str → Prop
  | some n => LastNamed ls key n
  | none => ∀ l ∈ ls, ¬ HasKey l key

theorem LastNamed.unique {ls : List Str} {key n n' : Str} (h : LastNamed ls key n) (h' : LastNamed ls key n') : n = n' := by
  obtain ⟨u, l, v, e, hk, ⟨t, ts, ht, hn⟩, hv⟩ := h
  obtain ⟨u', l', v', e', hk', ⟨t', ts', ht', hn'⟩, hv'⟩ := h'
  have : l = l' := by
    rw [e] at e'
    rcases List.append_eq_append_iff.1 e' with ⟨w, e1, e2⟩ | ⟨w, e1, e2⟩
    · cases w with
      | nil => injection e2
      | cons x w =>
        rw [List.cons_append] at e2
        injection e2 with _ e2
        exact absurd hk' (hv l' (by rw [e2]; simp))
    · cases w with
      | nil => injection e2 with e2; exact e2.symm
      | cons x w =>
        rw [List.cons_append] at e2
        injection e2 with _ e2
        exact absurd hk (hv' l (by rw [e2]; simp))
  subst this
  rw [ht] at ht'
  cases ht'
  rw [hn, hn']

theorem NamedFor.unique {ls : List Str} {key : Str} {o o' : Option Str} (h : NamedFor ls key o) (h' : NamedFor ls key o') : o = o' := by
  cases o with
  | none =>
    cases o' with
    | none => rfl
    | some n =>
      obtain ⟨u, l, v, e, hk, _⟩ := h'
      exact absurd hk (h l (by rw [e]; simp))
  | some n =>
    cases o' with
    | none =>
      obtain ⟨u, l, v, e, hk, _⟩ := h
      exact absurd hk (h' l (by rw [e]; simp))
    | some n' => rw [LastNamed.unique h h']

/-- Lines of the file named, the file that cannot be opened having none; else the other lines. -/
def source (fs : Str → Option File) (other : File) : Option Str → File
  | some n => (fs n).getD []
  | none => other

/-- The pillars and the depths are read from the files that the last inclusions with their key name, and from the file itself without such
inclusion; the depths are then looked for after the pillars, when these are in the file too. -/
theorem included {merge : List (Pt D) → List (Pt D) × List Nat} {fs : Str → Option File} {f after : File} {nx ny nz : Nat}
    (hd : readDims f = .ok ((nx, ny, nz), after)) {ls : List Str} (hi : Includes after ls) {o1 o2 : Option Str}
    (h1 : NamedFor ls cs!"COORD" o1) (h2 : NamedFor ls cs!"ZCORN" o2) :
    (load merge fs f : Res (Solid D)) = (do
      let r ← (readPillars nx ny (source fs f o1) : Res (List (Pillar D) × File))
      let ds ← readDepths nx ny nz (source fs (if o1.isSome then f else r.2) o2)
      createCells merge nx ny nz r.1 ds) := by
  obtain ⟨rs, hr, he⟩ := includesLoop_ok hi
  have hf : ∀ key o, NamedFor ls key o → fileOf rs key = o := by
    intro key o ho
    rcases fileOf_entries he key with ⟨n, e, hn⟩ | ⟨e, hn⟩
    · rw [e]; exact NamedFor.unique (o := some n) hn ho
    · rw [e]; exact NamedFor.unique (o := none) hn ho
  unfold load
  rw [hd, Res.ok_bind]
  simp only [hr, Res.ok_bind, hf _ _ h1, hf _ _ h2]
  cases o1 with
  | none =>
    cases o2 with
    | none => rfl
    | some n2 => rfl
  | some n1 =>
    simp only [source]
    cases (readPillars nx ny ((fs n1).getD []) : Res (List (Pillar D) × File)) with
    | ok r => cases o2 <;> rfl
    | throw => rfl
    | ub => rfl
    | diverge => rfl

/-- A file with one section: the lines before it, its keyword, its lines, its end. -/
def sectionFile (pre : File) (kw : Str) (lines : List Str) (stop : Str) (post : File) : File := pre ++ kw :: (lines ++ stop :: post)

/-- A grid whose pillars and depths are in files named with `_COORD.` and `_ZCORN.` has the pillars and depths of these files, wherever they
are in the files and whatever else is included or written. -/
theorem included_sections_partial {merge : List (Pt D) → List (Pt D) × List Nat} {fs : Str → Option File} {f after : File} {nx ny nz : Nat}
    (hd : readDims f = .ok ((nx, ny, nz), after)) {ls : List Str} (hi : Includes after ls) {n1 n2 : Str}
    (h1 : LastNamed ls cs!"COORD" n1) (h2 : LastNamed ls cs!"ZCORN" n2)
    {pre1 post1 pre2 post2 : File} {kw1 kw2 stop1 stop2 : Str} {lines1 lines2 : List Str} {ps : List (Pillar D)} {ds : List D}
    (f1 : fs n1 = some (sectionFile pre1 kw1 lines1 stop1 post1)) (f2 : fs n2 = some (sectionFile pre2 kw2 lines2 stop2 post2))
    (hp1 : ∀ l ∈ pre1, startsWith l cs!"COORD" = false) (hk1 : startsWith kw1 cs!"COORD" = true) (hl1 : PillarLines ps lines1) (hs1 : IsEnd stop1)
    (hp2 : ∀ l ∈ pre2, startsWith l cs!"ZCORN" = false) (hk2 : startsWith kw2 cs!"ZCORN" = true) (hl2 : DepthLines ds lines2) (hs2 : IsEnd stop2)
    (hW : 8 * nx * ny * nz < W) (hP : (nx + 1) * (ny + 1) < W) (hps : ps.length = (nx + 1) * (ny + 1)) (hds : ds.length = 8 * nx * ny * nz) :
    (load merge fs f : Res (Solid D)) = createCells merge nx ny nz ps (ds.map some) := by
  rw [included hd hi (o1 := some n1) (o2 := some n2) h1 h2]
  simp only [source, f1, f2, Option.getD_some, sectionFile]
  unfold readPillars gotoKeyword
  rw [gotoKeyword?_skip' hp1 hk1]
  simp only [Res.ofParse_some, Res.ok_bind]
  rw [pillarsLoop_lines _ hl1 [] (Nat.zero_le _), Nat.mod_eq_of_lt hP]
  simp only [List.length_nil, Nat.zero_add, List.nil_append]
  rw [if_pos (Nat.le_of_eq hps), pillarsLoop_end _ _ hs1]
  simp only [Res.ok_bind, Res.pure_eq]
  unfold readDepths gotoKeyword
  rw [gotoKeyword?_skip' hp2 hk2]
  simp only [Res.ofParse_some, Res.ok_bind]
  rw [depthsLoop_lines _ hl2 [] (Nat.zero_le _), Nat.mod_eq_of_lt hW]
  simp only [List.length_nil, Nat.zero_add, List.nil_append]
  rw [if_pos (Nat.le_of_eq hds), depthsLoop_end _ _ hs2]
  simp only [Res.ok_bind, Res.pure_eq, hps, hds, Nat.sub_self, List.replicate_zero, List.append_nil]

/-- A file of pillars that cannot be opened is reported. -/
theorem missing_file {merge : List (Pt D) → List (Pt D) × List Nat} {fs : Str → Option File} {f after : File} {nx ny nz : Nat}
    (hd : readDims f = .ok ((nx, ny, nz), after)) {ls : List Str} (hi : Includes after ls) {n1 : Str} {o2 : Option Str}
    (h1 : LastNamed ls cs!"COORD" n1) (h2 : NamedFor ls cs!"ZCORN" o2) (f1 : fs n1 = none) : (load merge fs f : Res (Solid D)) = .throw := by
  rw [included hd hi (o1 := some n1) (o2 := o2) h1 h2]
  simp only [source, f1, Option.getD_none]
  rfl

end

/-- The usual form of the line: the name between quotes, the key between the last underscore and the dot. -/
theorem usual_line {stem key ext : Str} (hs : ∀ c ∈ stem, isWs c = false) (hk : ∀ c ∈ key, isWs c = false ∧ c ≠ '_' ∧ c ≠ '.')
    (he : ∀ c ∈ ext, isWs c = false) :
    HasKey ('\'' :: (stem ++ '_' :: (key ++ '.' :: (ext ++ cs!"' /")))) key ∧
      HasName ('\'' :: (stem ++ '_' :: (key ++ '.' :: (ext ++ cs!"' /")))) (stem ++ '_' :: (key ++ '.' :: ext)) := by
  refine ⟨⟨'\'' :: (stem ++ ['_']), ext ++ cs!"' /", by simp, fun h => (hk _ h).2.1 rfl, fun h => (hk _ h).2.2 rfl, .inr ⟨'\'' :: stem, rfl⟩⟩, ?_⟩
  refine ⟨'\'' :: (stem ++ '_' :: (key ++ '.' :: (ext ++ ['\'']))), [['/']], ?_, ?_⟩
  · have e : '\'' :: (stem ++ '_' :: (key ++ '.' :: (ext ++ cs!"' /"))) =
        ('\'' :: (stem ++ '_' :: (key ++ '.' :: (ext ++ ['\''])))) ++ ' ' :: ['/'] := by simp
    rw [e, split_tok_append ⟨by simp, ?_⟩]
    · rfl
    · intro c hc
      simp only [List.mem_cons, List.mem_append, List.not_mem_nil, or_false] at hc
      rcases hc with rfl | hc | rfl | hc | rfl | hc | rfl
      · decide
      · exact hs c hc
      · decide
      · exact (hk c hc).1
      · decide
      · exact he c hc
      · decide
  · simp only [List.drop_succ_cons, List.drop_zero]
    have : stem ++ '_' :: (key ++ '.' :: (ext ++ ['\''])) = (stem ++ '_' :: (key ++ '.' :: ext)) ++ ['\''] := by simp
    rw [this, List.take_append_of_le_length (by simp; omega), List.take_of_length_le (by simp; omega)]

/-- A grid of one cell with its pillars and depths in included files; an earlier inclusion of pillars is overridden. -/
def main1 : File := [cs!"SPECGRID", cs!"1 1 1 1 F /", cs!"INCLUDE", cs!"'old_COORD.x' /", cs!"INCLUDE", cs!"'a_COORD.x' /", cs!"INCLUDE",
  cs!" 'a_ZCORN.x' /"]

theorem main1_includes : ∃ after ls, readDims main1 = .ok ((1, 1, 1), after) ∧ Includes after ls ∧ LastNamed ls cs!"COORD" cs!"a_COORD.x" ∧
    LastNamed ls cs!"ZCORN" cs!"a_ZCORN.x" := by
  refine ⟨main1.drop 2, [cs!"'old_COORD.x' /", cs!"'a_COORD.x' /", cs!" 'a_ZCORN.x' /"], by decide +kernel,
    .take (by decide) (.take (by decide) (.take (by decide) .nil)), ?_, ?_⟩
  · obtain ⟨h1, h2⟩ := usual_line (stem := cs!"a") (key := cs!"COORD") (ext := cs!"x") (by decide) (by decide) (by decide)
    refine ⟨[_], _, [_], rfl, h1, h2, ?_⟩
    intro l hl hk
    rw [List.mem_singleton.1 hl, ← mem_keys _ (Nat.le_refl _)] at hk
    revert hk
    decide +kernel
  · refine ⟨[_, _], _, [], rfl, (mem_keys _ (Nat.le_refl _)).1 (by decide +kernel), ⟨cs!"'a_ZCORN.x'", [cs!"/"], by decide +kernel, rfl⟩, by simp⟩

/-- The files included. -/
def fs1 : Str → Option File := fun n =>
  if n = cs!"a_COORD.x" then some (cs!"COORD" :: (parts1.pillars ++ [cs!"/"]))
  else if n = cs!"a_ZCORN.x" then some [cs!"ZCORN", cs!"0 0 0 0 9 9 9 9", cs!"/"]
  else if n = cs!"COORD.x" then some (cs!"COORD" :: (parts1.pillars ++ [cs!"/"]))
  else if n = cs!"my a_COORD.x" then some (cs!"COORD" :: (parts1.pillars ++ [cs!"/"]))
  else none

example : (match (load (fun pts => (pts, List.range pts.length)) fs1 main1 : Res (Solid Int)) with | .ok s => s.hexas | _ => []) =
    [[0, 1, 2, 3, 4, 5, 6, 7]] := by decide +kernel

/-- A name without underscore is not used: the section is not found. -/
theorem plain_name_ignored : (load (fun pts => (pts, List.range pts.length)) fs1
      [cs!"SPECGRID", cs!"1 1 1 1 F /", cs!"INCLUDE", cs!"'COORD.x' /", cs!"INCLUDE", cs!"'a_ZCORN.x' /"] : Res (Solid Int)) = .throw := by
  decide +kernel

/-- A name with a blank is cut: the file is not found. -/
theorem blank_name_cut : (load (fun pts => (pts, List.range pts.length)) fs1
      [cs!"SPECGRID", cs!"1 1 1 1 F /", cs!"INCLUDE", cs!"'my a_COORD.x' /", cs!"INCLUDE", cs!"'a_ZCORN.x' /"] : Res (Solid Int)) = .throw := by
  decide +kernel

end Verif.Props.GrdeclIncludes
