import Verif.Lemmas.GocadText

/-!
# Headers and coordinate systems of GOCAD objects
-/

namespace Verif.Props.GocadHeaders

open Verif Verif.Gocad Res

/-! ## The name -/

/-- The line has `name:` somewhere. -/
def Mentions (l : Str) : Prop := ∃ p q, l = p ++ cs!"name:" ++ q

/-- What follows the first `name:` of the line. -/
def After (l q : Str) : Prop := ∃ p, l = p ++ cs!"name:" ++ q ∧ ∀ p' q', l = p' ++ cs!"name:" ++ q' → p.length ≤ p'.length

theorem afterFirst_spec (l : Str) : (∃ q, afterFirst cs!"name:" l = some q ∧ After l q) ∨ (afterFirst cs!"name:" l = none ∧ ¬ Mentions l) := by
  induction l with
  | nil =>
    refine .inr ⟨rfl, ?_⟩
    rintro ⟨p, q, h⟩
    have := congrArg List.length h
    simp at this
  | cons c cs ih =>
    by_cases h : (cs!"name:").isPrefixOf (c :: cs) = true
    · obtain ⟨q, hq⟩ := List.isPrefixOf_iff_prefix.1 h
      refine .inl ⟨q, ?_, [], by simpa using hq.symm, fun _ _ _ => Nat.zero_le _⟩
      rw [afterFirst, if_pos h, ← hq]
      simp
    · have step : ∀ p q, c :: cs = p ++ cs!"name:" ++ q → ∃ p', p = c :: p' ∧ cs = p' ++ cs!"name:" ++ q := by
        intro p q e
        cases p with
        | nil => exact absurd (List.isPrefixOf_iff_prefix.2 ⟨q, by simpa using e.symm⟩) h
        | cons d p' =>
          simp only [List.cons_append, List.cons.injEq] at e
          exact ⟨p', by rw [e.1], by simpa using e.2⟩
      rw [afterFirst, if_neg h]
      rcases ih with ⟨q, h1, p, rfl, h2⟩ | ⟨h1, h2⟩
      · refine .inl ⟨q, h1, c :: p, by simp, ?_⟩
        intro p' q' e
        obtain ⟨p'', rfl, e'⟩ := step p' q' e
        have := h2 p'' q' e'
        simpa using this
      · refine .inr ⟨h1, ?_⟩
        rintro ⟨p, q, e⟩
        obtain ⟨p', -, e'⟩ := step p q e
        exact h2 ⟨p', q, e'⟩

/-- The name the lines of a header give: the words after the first `name:` of the last line that has one. -/
def Named (body : File) : Option Str → Prop
  | none => ∀ l ∈ body, ¬ Mentions l
  | some n => ∃ pre l post q, body = pre ++ l :: post ∧ After l q ∧ n = readName (split q) ∧ ∀ x ∈ post, ¬ Mentions x

theorem After.mentions {l q : Str} (h : After l q) : Mentions l := by
  obtain ⟨p, e, -⟩ := h
  exact ⟨p, q, e⟩

theorem After.unique {l q q' : Str} (h : After l q) (h' : After l q') : q = q' := by
  obtain ⟨p, e, m⟩ := h
  obtain ⟨p', e', m'⟩ := h'
  have hl : p.length = p'.length := Nat.le_antisymm (m _ _ e') (m' _ _ e)
  have h2 := e.symm.trans e'
  simp only [List.append_assoc] at h2
  have := (List.append_inj h2 hl).2
  simpa using this

theorem headerLoop_read (f : File) (name0 : Option Str) {name : Option Str} {rest : File} (h : readHeaderLoop name0 f = .ok (name, rest)) :
    ∃ body c, f = body ++ c :: rest ∧ startsWith c cs!"}" = true ∧ (∀ x ∈ body, startsWith x cs!"}" = false) ∧
      (Named body name ∧ (∃ l ∈ body, Mentions l) ∨ name = name0 ∧ ∀ l ∈ body, ¬ Mentions l) := by
  induction f generalizing name0 with
  | nil => cases h
  | cons l ls ih =>
    rw [readHeaderLoop] at h
    split at h
    · rename_i hl
      cases h
      exact ⟨[], l, rfl, hl, by simp, .inr ⟨rfl, by simp⟩⟩
    · rename_i hl
      have hl' : startsWith l cs!"}" = false := by simpa using hl
      rcases afterFirst_spec l with ⟨q, e, hq⟩ | ⟨e, hq⟩
      · rw [e] at h
        obtain ⟨body, c, rfl, hc, hb, hn⟩ := ih _ h
        refine ⟨l :: body, c, rfl, hc, ?_, .inl ⟨?_, l, by simp, hq.mentions⟩⟩
        · intro x hx
          rcases List.mem_cons.1 hx with rfl | hx
          · exact hl'
          · exact hb x hx
        · rcases hn with ⟨hn, y, hy, hm⟩ | ⟨rfl, hn⟩
          · cases name with
            | none => exact absurd hm (hn y hy)
            | some n =>
              obtain ⟨pre, z, post, q', rfl, h1, h2, h3⟩ := hn
              exact ⟨l :: pre, z, post, q', rfl, h1, h2, h3⟩
          · exact ⟨[], l, body, q, rfl, hq, rfl, hn⟩
      · rw [e] at h
        obtain ⟨body, c, rfl, hc, hb, hn⟩ := ih _ h
        refine ⟨l :: body, c, rfl, hc, ?_, ?_⟩
        · intro x hx
          rcases List.mem_cons.1 hx with rfl | hx
          · exact hl'
          · exact hb x hx
        · rcases hn with ⟨hn, y, hy, hm⟩ | ⟨rfl, hn⟩
          · refine .inl ⟨?_, y, by simp [hy], hm⟩
            cases name with
            | none => exact absurd hm (hn y hy)
            | some n =>
              obtain ⟨pre, z, post, q', rfl, h1, h2, h3⟩ := hn
              exact ⟨l :: pre, z, post, q', rfl, h1, h2, h3⟩
          · refine .inr ⟨rfl, ?_⟩
            intro x hx
            rcases List.mem_cons.1 hx with rfl | hx
            · exact hq
            · exact hn x hx

theorem headerLoop_ends {body : File} {c : Str} {rest : File} (hb : ∀ x ∈ body, startsWith x cs!"}" = false) (hc : startsWith c cs!"}" = true)
    (name0 : Option Str) : ∃ name, readHeaderLoop name0 (body ++ c :: rest) = .ok (name, rest) := by
  induction body generalizing name0 with
  | nil => exact ⟨name0, by rw [List.nil_append, readHeaderLoop, if_pos hc]⟩
  | cons l ls ih =>
    rw [List.cons_append, readHeaderLoop, if_neg (by simp [hb l (by simp)])]
    split
    · exact ih (fun x hx => hb x (by simp [hx])) _
    · exact ih (fun x hx => hb x (by simp [hx])) _

theorem headerLoop_throw {f : File} (hb : ∀ x ∈ f, startsWith x cs!"}" = false) (name0 : Option Str) : readHeaderLoop name0 f = .throw := by
  induction f generalizing name0 with
  | nil => rfl
  | cons l ls ih =>
    rw [readHeaderLoop, if_neg (by simp [hb l (by simp)])]
    split
    · exact ih (fun x hx => hb x (by simp [hx])) _
    · exact ih (fun x hx => hb x (by simp [hx])) _

theorem Named.unique {body : File} {a b : Option Str} (ha : Named body a) (hb : Named body b) : a = b := by
  have last : ∀ {pre l post pre' l' post' : _}, body = pre ++ l :: post → body = pre' ++ l' :: post' → Mentions l → Mentions l' →
      (∀ x ∈ post, ¬ Mentions x) → (∀ x ∈ post', ¬ Mentions x) → l = l' := by
    intro pre l post pre' l' post' e e' m m' n n'
    have h := e.symm.trans e'
    rcases Nat.lt_trichotomy pre.length pre'.length with hl | hl | hl
    · exfalso
      obtain ⟨t, rfl⟩ := List.prefix_of_prefix_length_le (List.prefix_append pre (l :: post)) (h ▸ List.prefix_append pre' (l' :: post')) (Nat.le_of_lt hl)
      rw [List.append_assoc] at h
      have h2 := List.append_cancel_left h
      cases t with
      | nil => simp at hl
      | cons x t =>
        simp only [List.cons_append, List.cons.injEq] at h2
        exact n l' (by rw [h2.2]; simp) m'
    · have := (List.append_inj h hl).2
      simp only [List.cons.injEq] at this
      exact this.1
    · exfalso
      obtain ⟨t, rfl⟩ := List.prefix_of_prefix_length_le (List.prefix_append pre' (l' :: post')) (h ▸ List.prefix_append pre (l :: post)) (Nat.le_of_lt hl)
      rw [List.append_assoc] at h
      have h2 := List.append_cancel_left h
      cases t with
      | nil => simp at hl
      | cons x t =>
        simp only [List.cons_append, List.cons.injEq] at h2
        exact n' l (by rw [← h2.2]; simp) m
  cases a with
  | none =>
    cases b with
    | none => rfl
    | some n =>
      obtain ⟨pre, l, post, q, rfl, h, -, -⟩ := hb
      exact absurd h.mentions (ha l (by simp))
  | some n =>
    obtain ⟨pre, l, post, q, e, h, rfl, hp⟩ := ha
    cases b with
    | none => exact absurd h.mentions (hb l (by rw [e]; simp))
    | some n' =>
      obtain ⟨pre', l', post', q', e', h', rfl, hp'⟩ := hb
      cases last e e' h.mentions h'.mentions hp hp'
      cases h.unique h'
      rfl

/-- A header is read if and only if the next line starts with `HEADER` and a line after it starts with a closing brace; the name is what
follows the first `name:` of the last line between them that has one. -/
theorem header_read {f : File} {name : Option Str} {rest : File} : readHeader f = .ok (name, rest) ↔
    ∃ h body c, f = h :: (body ++ c :: rest) ∧ startsWith h cs!"HEADER" = true ∧ startsWith c cs!"}" = true ∧
      (∀ x ∈ body, startsWith x cs!"}" = false) ∧ Named body name := by
  have fwd : ∀ {f : File} {name : Option Str} {rest : File}, readHeader f = .ok (name, rest) →
    ∃ h body c, f = h :: (body ++ c :: rest) ∧ startsWith h cs!"HEADER" = true ∧ startsWith c cs!"}" = true ∧
      (∀ x ∈ body, startsWith x cs!"}" = false) ∧ Named body name := by
    intro f name rest h
    unfold readHeader at h
    obtain ⟨g, h1, h2⟩ := bind_eq_ok.1 h
    cases f with
    | nil => cases h1
    | cons l ls =>
      rw [checkKeyword] at h1
      split at h1
      · rename_i hl
        cases h1
        obtain ⟨body, c, rfl, hc, hb, hn⟩ := headerLoop_read _ _ h2
        refine ⟨l, body, c, rfl, hl, hc, hb, ?_⟩
        rcases hn with ⟨hn, -⟩ | ⟨rfl, hn⟩
        · exact hn
        · exact hn
      · cases h1
  refine ⟨fwd, ?_⟩
  rintro ⟨h, body, c, rfl, hh, hc, hb, hn⟩
  obtain ⟨name', e⟩ := headerLoop_ends (rest := rest) hb hc none
  have e2 : readHeader (h :: (body ++ c :: rest)) = .ok (name', rest) := by
    unfold readHeader
    rw [checkKeyword, if_pos hh, ok_bind, e]
  obtain ⟨h', body', c', ef, -, hc', hb', hn'⟩ := fwd e2
  simp only [List.cons.injEq] at ef
  have hl : body.length = body'.length := by
    have := congrArg List.length ef.2
    simp at this
    omega
  obtain ⟨rfl, -⟩ := List.append_inj ef.2 hl
  rw [e2, hn'.unique hn]

/-- Otherwise the file is refused. -/
theorem header_refused (f : File) : (∃ r, readHeader f = .ok r) ∨ readHeader f = .throw := by
  cases f with
  | nil => exact .inr rfl
  | cons l ls =>
    by_cases hl : startsWith l cs!"HEADER" = true
    · have e : readHeader (l :: ls) = readHeaderLoop none ls := by
        unfold readHeader
        rw [checkKeyword, if_pos hl, ok_bind]
      rw [e]
      clear e
      generalize none = n
      induction ls generalizing n with
      | nil => exact .inr rfl
      | cons x xs ih =>
        rw [readHeaderLoop]
        split
        · exact .inl ⟨_, rfl⟩
        · split
          · exact ih _
          · exact ih _
    · refine .inr ?_
      unfold readHeader
      rw [checkKeyword, if_neg hl]
      rfl

/-- The name is the one on the line whose key is `name`, that is which starts with `name:`. -/
def KeyNames : Prop := ∀ (pre post rest : File) (n : Str), (∀ x ∈ pre ++ post, startsWith x cs!"}" = false ∧ startsWith x cs!"name:" = false) →
  readHeader (cs!"HEADER {" :: (pre ++ (cs!"name:" ++ n) :: post) ++ cs!"}" :: rest) = .ok (some (readName (split n)), rest)

/-- This is wrong: a line of another key that ends with `name` gives the name. -/
theorem key_names_fail : ¬ KeyNames := by
  intro h
  have := h [] [cs!"colormap_name:rainbow"] [] cs!"fault" (by decide)
  revert this
  decide +kernel

/-- It holds when no line after that one has `name:` in it. -/
theorem key_names_partial (pre post rest : File) (n : Str) (hb : ∀ x ∈ pre ++ post, startsWith x cs!"}" = false) (hp : ∀ x ∈ post, ¬ Mentions x) :
    readHeader (cs!"HEADER {" :: (pre ++ (cs!"name:" ++ n) :: post) ++ cs!"}" :: rest) = .ok (some (readName (split n)), rest) := by
  refine header_read.2 ⟨_, pre ++ (cs!"name:" ++ n) :: post, cs!"}", rfl, by decide, by decide, ?_, ?_⟩
  · intro x hx
    rcases List.mem_append.1 hx with hx | hx
    · exact hb x (by simp [hx])
    · rcases List.mem_cons.1 hx with rfl | hx
      · rfl
      · exact hb x (by simp [hx])
  · exact ⟨pre, _, post, n, rfl, ⟨[], rfl, fun _ _ _ => Nat.zero_le _⟩, rfl, hp⟩

example : readHeader [cs!"HEADER {", cs!"*name: old", cs!"name:  my   fault", cs!"visible:on", cs!"}", cs!"TFACE"] = .ok (some cs!"my fault", [cs!"TFACE"]) ∧
    readHeader [cs!"HEADER {", cs!"visible:on", cs!"}"] = .ok (none, []) ∧ readHeader [cs!"HEADER {", cs!"name:a"] = .throw ∧
    readHeader [cs!"name:a", cs!"}"] = .throw := by decide +kernel

/-! ## The coordinate system -/

/-- The first word of the line. -/
def HasKey (key l : Str) : Prop := ∃ ts, splitQuoted l = .ok (key :: ts)

/-- The value of the last line with the key, or the default value. -/
def LastValue (body : File) (key dflt v : Str) : Prop :=
  (v = dflt ∧ ∀ x ∈ body, ¬ HasKey key x) ∨
    ∃ pre l post ts, body = pre ++ l :: post ∧ splitQuoted l = .ok (key :: v :: ts) ∧ ∀ x ∈ post, ¬ HasKey key x

theorem LastValue.keep {body : File} {key d v x : Str} (h : LastValue body key d v) (hx : ¬ HasKey key x) : LastValue (x :: body) key d v := by
  rcases h with ⟨rfl, h⟩ | ⟨pre, l, post, ts, rfl, h1, h2⟩
  · refine .inl ⟨rfl, ?_⟩
    intro y hy
    rcases List.mem_cons.1 hy with rfl | hy
    · exact hx
    · exact h y hy
  · exact .inr ⟨x :: pre, l, post, ts, rfl, h1, h2⟩

theorem LastValue.set {body : File} {key d v w x : Str} {ts : List Str} (h : LastValue body key w v) (hx : splitQuoted x = .ok (key :: w :: ts)) :
    LastValue (x :: body) key d v := by
  rcases h with ⟨rfl, h⟩ | ⟨pre, l, post, ts', rfl, h1, h2⟩
  · exact .inr ⟨[], x, body, ts, rfl, hx, h⟩
  · exact .inr ⟨x :: pre, l, post, ts', rfl, h1, h2⟩

/-- What a line does to the value of a key. -/
def Step (l key d v : Str) : Prop := (∃ ts, splitQuoted l = .ok (key :: v :: ts)) ∨ (v = d ∧ ¬ HasKey key l)

theorem LastValue.step {body : File} {key d v w x : Str} (h : LastValue body key w v) (hx : Step x key d w) : LastValue (x :: body) key d v := by
  rcases hx with ⟨ts, hx⟩ | ⟨rfl, hx⟩
  · exact h.set hx
  · exact h.keep hx

theorem noKey {l t0 key : Str} {ts : List Str} (h : splitQuoted l = .ok (t0 :: ts)) (hk : t0 ≠ key) : ¬ HasKey key l := by
  rintro ⟨ts', e⟩
  rw [h] at e
  cases e
  exact hk rfl

theorem crsLine_steps {c c' : Crs} {l : Str} (h : crsLine c l = .ok c') : c'.axisNames = c.axisNames ∧ c'.axisUnits = c.axisUnits ∧
    Step l cs!"NAME" c.name c'.name ∧ Step l cs!"PROJECTION" c.projection c'.projection ∧ Step l cs!"DATUM" c.datum c'.datum ∧
    ((∃ z ts, splitQuoted l = .ok (cs!"ZPOSITIVE" :: z :: ts) ∧ c'.zPos = (z == cs!"Elevation")) ∨ (c'.zPos = c.zPos ∧ ¬ HasKey cs!"ZPOSITIVE" l)) := by
  unfold crsLine at h
  obtain ⟨toks, ht, h⟩ := bind_eq_ok.1 h
  obtain ⟨t0, h0, h⟩ := bind_eq_ok.1 h
  cases toks with
  | nil => cases h0
  | cons t ts =>
    cases h0
    have idx : ∀ {t1 : Str}, Res.index (t0 :: ts) 1 = .ok t1 → ∃ r, ts = t1 :: r := by
      intro t1 e
      cases ts with
      | nil => cases e
      | cons a r => cases e; exact ⟨r, rfl⟩
    split at h
    · rename_i hk
      subst hk
      obtain ⟨t1, h1, h2⟩ := bind_eq_ok.1 h
      obtain ⟨r, rfl⟩ := idx h1
      cases h2
      exact ⟨rfl, rfl, .inr ⟨rfl, noKey ht (by decide)⟩, .inr ⟨rfl, noKey ht (by decide)⟩, .inr ⟨rfl, noKey ht (by decide)⟩, .inl ⟨t1, r, ht, rfl⟩⟩
    · rename_i hz
      split at h
      · rename_i hk
        subst hk
        obtain ⟨t1, h1, h2⟩ := bind_eq_ok.1 h
        obtain ⟨r, rfl⟩ := idx h1
        cases h2
        exact ⟨rfl, rfl, .inr ⟨rfl, noKey ht (by decide)⟩, .inl ⟨r, ht⟩, .inr ⟨rfl, noKey ht (by decide)⟩, .inr ⟨rfl, noKey ht hz⟩⟩
      · rename_i hp
        split at h
        · rename_i hk
          subst hk
          obtain ⟨t1, h1, h2⟩ := bind_eq_ok.1 h
          obtain ⟨r, rfl⟩ := idx h1
          cases h2
          exact ⟨rfl, rfl, .inr ⟨rfl, noKey ht (by decide)⟩, .inr ⟨rfl, noKey ht hp⟩, .inl ⟨r, ht⟩, .inr ⟨rfl, noKey ht hz⟩⟩
        · rename_i hd
          split at h
          · rename_i hk
            subst hk
            obtain ⟨t1, h1, h2⟩ := bind_eq_ok.1 h
            obtain ⟨r, rfl⟩ := idx h1
            cases h2
            exact ⟨rfl, rfl, .inl ⟨r, ht⟩, .inr ⟨rfl, noKey ht hp⟩, .inr ⟨rfl, noKey ht hd⟩, .inr ⟨rfl, noKey ht hz⟩⟩
          · rename_i hn
            cases h
            exact ⟨rfl, rfl, .inr ⟨rfl, noKey ht hn⟩, .inr ⟨rfl, noKey ht hp⟩, .inr ⟨rfl, noKey ht hd⟩, .inr ⟨rfl, noKey ht hz⟩⟩

theorem crsLoop_read (f : File) (c0 : Crs) (z0 : Str) (hz0 : c0.zPos = (z0 == cs!"Elevation")) {c : Crs} {rest : File}
    (h : readCrsLoop c0 f = .ok (c, rest)) :
    ∃ body e, f = body ++ e :: rest ∧ startsWith e cs!"END_ORIGINAL_COORDINATE_SYSTEM" = true ∧
      (∀ x ∈ body, startsWith x cs!"END_ORIGINAL_COORDINATE_SYSTEM" = false) ∧
      LastValue body cs!"NAME" c0.name c.name ∧ LastValue body cs!"PROJECTION" c0.projection c.projection ∧ LastValue body cs!"DATUM" c0.datum c.datum ∧
      (∃ z, LastValue body cs!"ZPOSITIVE" z0 z ∧ c.zPos = (z == cs!"Elevation")) ∧ c.axisNames = c0.axisNames ∧ c.axisUnits = c0.axisUnits := by
  induction f generalizing c0 z0 with
  | nil => cases h
  | cons l ls ih =>
    rw [readCrsLoop] at h
    split at h
    · rename_i hl
      cases h
      exact ⟨[], l, rfl, hl, by simp, .inl ⟨rfl, by simp⟩, .inl ⟨rfl, by simp⟩, .inl ⟨rfl, by simp⟩, ⟨z0, .inl ⟨rfl, by simp⟩, hz0⟩, rfl, rfl⟩
    · rename_i hl
      obtain ⟨c1, h1, h2⟩ := bind_eq_ok.1 h
      obtain ⟨a1, a2, s1, s2, s3, s4⟩ := crsLine_steps h1
      have hz : ∃ z1, c1.zPos = (z1 == cs!"Elevation") ∧ Step l cs!"ZPOSITIVE" z0 z1 := by
        rcases s4 with ⟨z, ts, e1, e2⟩ | ⟨e1, e2⟩
        · exact ⟨z, e2, .inl ⟨ts, e1⟩⟩
        · exact ⟨z0, e1.trans hz0, .inr ⟨rfl, e2⟩⟩
      obtain ⟨z1, hz1, s4⟩ := hz
      obtain ⟨body, e, rfl, he, hb, v1, v2, v3, ⟨z, v4, hz⟩, b1, b2⟩ := ih c1 z1 hz1 h2
      refine ⟨l :: body, e, rfl, he, ?_, v1.step s1, v2.step s2, v3.step s3, ⟨z, v4.step s4, hz⟩, b1.trans a1, b2.trans a2⟩
      intro x hx
      rcases List.mem_cons.1 hx with rfl | hx
      · simpa using hl
      · exact hb x hx

/-- What is read of a coordinate system: name, projection and datum are those of the last lines that have them, the third axis points upwards
unless the last line on it says another word than `Elevation`, and the names and units of the axes are never read. -/
theorem crs_read {f : File} {c : Crs} {rest : File} (h : readCrs f = .ok (c, rest)) :
    ((∀ l, f.head? = some l → startsWith l cs!"GOCAD_ORIGINAL_COORDINATE_SYSTEM" = false) ∧ c = {} ∧ rest = f) ∨
    ∃ k body e, f = k :: (body ++ e :: rest) ∧ startsWith k cs!"GOCAD_ORIGINAL_COORDINATE_SYSTEM" = true ∧
      startsWith e cs!"END_ORIGINAL_COORDINATE_SYSTEM" = true ∧ (∀ x ∈ body, startsWith x cs!"END_ORIGINAL_COORDINATE_SYSTEM" = false) ∧
      LastValue body cs!"NAME" cs!"Default" c.name ∧ LastValue body cs!"PROJECTION" cs!"Unknown" c.projection ∧
      LastValue body cs!"DATUM" cs!"Unknown" c.datum ∧ (∃ z, LastValue body cs!"ZPOSITIVE" cs!"Elevation" z ∧ c.zPos = (z == cs!"Elevation")) ∧
      c.axisNames = (cs!"X", cs!"Y", cs!"Z") ∧ c.axisUnits = (cs!"m", cs!"m", cs!"m") := by
  unfold readCrs at h
  cases f with
  | nil => cases h; exact .inl ⟨by simp, rfl, rfl⟩
  | cons k ls =>
    by_cases hk : startsWith k cs!"GOCAD_ORIGINAL_COORDINATE_SYSTEM" = true
    · rw [nextKeyword?, if_pos hk] at h
      obtain ⟨body, e, rfl, r⟩ := crsLoop_read ls {} cs!"Elevation" rfl h
      exact .inr ⟨k, body, e, rfl, hk, r⟩
    · rw [nextKeyword?, if_neg hk] at h
      cases h
      refine .inl ⟨?_, rfl, rfl⟩
      intro l hl
      cases hl
      simpa using hk

/-- A line of a coordinate system that can be read: it has a word, its quotations are closed, and the four keys have a value. -/
def Readable (l : Str) : Prop := ∃ t ts, splitQuoted l = .ok (t :: ts) ∧
  (t = cs!"NAME" ∨ t = cs!"PROJECTION" ∨ t = cs!"DATUM" ∨ t = cs!"ZPOSITIVE" → ts ≠ [])

theorem crsLine_iff (c : Crs) (l : Str) : (∃ c', crsLine c l = .ok c') ↔ Readable l := by
  constructor
  · rintro ⟨c', h⟩
    have hs := crsLine_steps h
    unfold crsLine at h
    obtain ⟨toks, ht, h⟩ := bind_eq_ok.1 h
    obtain ⟨t0, h0, h⟩ := bind_eq_ok.1 h
    cases toks with
    | nil => cases h0
    | cons t ts =>
      refine ⟨t, ts, ht, ?_⟩
      rintro hk rfl
      have key : ∀ {key d v : Str}, t = key → Step l key d v → False := by
        intro key d v hk hs
        rcases hs with ⟨r, e⟩ | ⟨-, e⟩
        · rw [ht] at e; cases e
        · exact e ⟨[], hk ▸ ht⟩
      obtain ⟨-, -, s1, s2, s3, s4⟩ := hs
      rcases hk with hk | hk | hk | hk
      · exact key hk s1
      · exact key hk s2
      · exact key hk s3
      · rcases s4 with ⟨z, r, e, -⟩ | ⟨-, e⟩
        · rw [ht] at e; cases e
        · exact e ⟨[], hk ▸ ht⟩
  · rintro ⟨t, ts, ht, hv⟩
    unfold crsLine
    rw [ht, ok_bind, show Res.index (t :: ts) 0 = .ok t from rfl, ok_bind]
    by_cases hk : t = cs!"NAME" ∨ t = cs!"PROJECTION" ∨ t = cs!"DATUM" ∨ t = cs!"ZPOSITIVE"
    · cases ts with
      | nil => exact absurd rfl (hv hk)
      | cons v r =>
        rw [show Res.index (t :: v :: r) 1 = .ok v from rfl]
        simp only [ok_bind, pure_eq]
        split
        · exact ⟨_, rfl⟩
        · split
          · exact ⟨_, rfl⟩
          · split
            · exact ⟨_, rfl⟩
            · split
              · exact ⟨_, rfl⟩
              · exact ⟨_, rfl⟩
    · simp only [not_or] at hk
      rw [if_neg hk.2.2.2, if_neg hk.2.1, if_neg hk.2.2.1, if_neg hk.1]
      exact ⟨_, rfl⟩

/-- When a coordinate system is read: all its lines can be. -/
theorem crs_readable {k e : Str} {body rest : File} (hk : startsWith k cs!"GOCAD_ORIGINAL_COORDINATE_SYSTEM" = true)
    (he : startsWith e cs!"END_ORIGINAL_COORDINATE_SYSTEM" = true) (hb : ∀ x ∈ body, startsWith x cs!"END_ORIGINAL_COORDINATE_SYSTEM" = false) :
    (∃ c, readCrs (k :: (body ++ e :: rest)) = .ok (c, rest)) ↔ ∀ l ∈ body, Readable l := by
  unfold readCrs
  rw [nextKeyword?, if_pos hk]
  dsimp only
  generalize ({} : Crs) = c0
  induction body generalizing c0 with
  | nil =>
    rw [List.nil_append, readCrsLoop, if_pos he]
    simp
  | cons l ls ih =>
    rw [List.cons_append, readCrsLoop, if_neg (by simp [hb l (by simp)])]
    have ih := ih (fun x hx => hb x (by simp [hx]))
    constructor
    · rintro ⟨c, h⟩
      obtain ⟨c1, h1, h2⟩ := bind_eq_ok.1 h
      intro x hx
      rcases List.mem_cons.1 hx with rfl | hx
      · exact (crsLine_iff _ _).1 ⟨c1, h1⟩
      · exact (ih c1).1 ⟨c, h2⟩ x hx
    · intro h
      obtain ⟨c1, h1⟩ := (crsLine_iff c0 l).2 (h l (by simp))
      rw [h1, ok_bind]
      exact (ih c1).2 fun x hx => h x (by simp [hx])

/-- A coordinate system that is written is read back. -/
def CrsKept : Prop := ∀ (c : Crs) (rest : File), GoodCrs c → readCrs (writeCrs c ++ rest) = .ok (c, rest)

/-- This is wrong: the names and units of the axes are lost. -/
theorem crs_kept_fails : ¬ CrsKept := by
  intro h
  have := h { axisUnits := (cs!"ft", cs!"ft", cs!"ft") } [] ⟨goodCrs_default.name, goodCrs_default.projection, goodCrs_default.datum,
    goodCrs_default.names, by decide⟩
  revert this
  decide +kernel

/-- The rest is kept. -/
theorem crs_kept_partial {c : Crs} (h : GoodCrs c) (rest : File) :
    ∃ c', readCrs (writeCrs c ++ rest) = .ok (c', rest) ∧ c'.name = c.name ∧ c'.projection = c.projection ∧ c'.datum = c.datum ∧ c'.zPos = c.zPos :=
  ⟨_, readCrs_writeCrs h rest, rfl, rfl, rfl, rfl⟩

/-- A section with comments and a key given twice. -/
def someCrs : File := [cs!"GOCAD_ORIGINAL_COORDINATE_SYSTEM", cs!"NAME \" my system\"", cs!"ZPOSITIVE Depth", cs!"AXIS_UNIT ft ft ft", cs!"DATUM a", cs!"DATUM b",
  cs!"END_ORIGINAL_COORDINATE_SYSTEM", cs!"TFACE"]

example : readCrs someCrs = .ok ({ name := cs!"my system", datum := cs!"b", zPos := false }, [cs!"TFACE"]) := by decide +kernel

/-- A blank line in the section is undefined behaviour, as is a key without value. -/
example : readCrs (someCrs.take 2 ++ [] :: someCrs.drop 2) = .ub ∧ readCrs (someCrs.take 2 ++ cs!"DATUM" :: someCrs.drop 2) = .ub ∧
    readCrs (someCrs.take 5) = .throw := by decide +kernel

end Verif.Props.GocadHeaders
