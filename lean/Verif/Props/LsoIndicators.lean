import Verif.Model.Lso
import Verif.Props.LsoCut

/-!
# Region indicators of `.lso` files
-/

namespace Verif.Props.LsoIndicators

open Verif Verif.Gocad Verif.Lso Res

variable {D : Type} [Num D]

/-! ## Readers use the lines they consume and the first line after -/

/-- What a reader gives does not depend on what follows the next line. -/
def Local {α : Type} (R : File → Res (α × File)) : Prop := ∀ f a rest, R f = .ok (a, rest) →
  ∃ used, f = used ++ rest ∧ ∀ rest' : File, rest'.head? = rest.head? → R (used ++ rest') = .ok (a, rest')

theorem Local.bind {α β : Type} {R : File → Res (α × File)} {K : α × File → Res (β × File)} (h1 : Local R) (h2 : ∀ a, Local fun f => K (a, f)) :
    Local fun f => R f >>= K := by
  intro f b rest h
  obtain ⟨⟨a, f1⟩, hR, hK⟩ := bind_eq_ok.1 h
  obtain ⟨u1, rfl, hu1⟩ := h1 _ _ _ hR
  obtain ⟨u2, rfl, hu2⟩ := h2 a _ _ _ hK
  refine ⟨u1 ++ u2, by simp, ?_⟩
  intro rest' hr
  have hh : (u2 ++ rest').head? = (u2 ++ rest).head? := by
    cases u2 with
    | nil => exact hr
    | cons x u2 => rfl
  simp only [List.append_assoc, hu1 _ hh, ok_bind]
  exact hu2 _ hr

theorem local_pure {α : Type} (r : Res α) : Local fun f => r >>= fun a => .ok (a, f) := by
  intro f a rest h
  obtain ⟨b, rfl, hb⟩ := bind_eq_ok.1 h
  cases hb
  exact ⟨[], rfl, fun _ _ => rfl⟩

theorem local_step {α β : Type} (r : Res α) {K : α → File → Res (β × File)} (h : ∀ a, Local (K a)) : Local fun f => r >>= fun a => K a f := by
  intro f b rest hf
  obtain ⟨a, rfl, hK⟩ := bind_eq_ok.1 hf
  obtain ⟨u, e, hu⟩ := h a _ _ _ hK
  exact ⟨u, e, fun rest' hr => by simp only [ok_bind]; exact hu rest' hr⟩

theorem local_goto (kw : Str) : Local (gotoKeyword kw) := by
  intro f
  induction f with
  | nil => intro a rest h; cases h
  | cons l ls ih =>
    intro a rest h
    by_cases hl : startsWith l kw = true
    · have : gotoKeyword kw (l :: ls) = .ok (l, ls) := by simp [gotoKeyword, gotoKeyword?, hl, Res.ofParse]
      rw [this] at h
      cases h
      refine ⟨[l], rfl, fun rest' _ => ?_⟩
      simp [gotoKeyword, gotoKeyword?, hl, Res.ofParse]
    · have step : ∀ ls, gotoKeyword kw (l :: ls) = gotoKeyword kw ls := fun ls => by simp [gotoKeyword, gotoKeyword?, hl]
      rw [step] at h
      obtain ⟨u, rfl, hu⟩ := ih a rest h
      refine ⟨l :: u, rfl, fun rest' hr => ?_⟩
      rw [List.cons_append, step]
      exact hu rest' hr

theorem local_gotos (kws : List Str) : Local (gotoKeywords kws) := by
  intro f
  induction f with
  | nil => intro a rest h; cases h
  | cons l ls ih =>
    intro a rest h
    rw [gotoKeywords] at h
    split at h
    · rename_i hl
      cases h
      refine ⟨[l], rfl, fun rest' _ => ?_⟩
      rw [List.singleton_append, gotoKeywords, if_pos hl]
    · rename_i hl
      obtain ⟨u, rfl, hu⟩ := ih a rest h
      refine ⟨l :: u, rfl, fun rest' hr => ?_⟩
      rw [List.cons_append, gotoKeywords, if_neg hl]
      exact hu rest' hr

theorem local_headerLoop : ∀ (name : Option Str), Local (readHeaderLoop name) := by
  intro name f
  induction f generalizing name with
  | nil => intro a rest h; cases h
  | cons l ls ih =>
    intro a rest h
    rw [readHeaderLoop] at h
    split at h
    · rename_i hl
      cases h
      refine ⟨[l], rfl, fun rest' _ => ?_⟩
      rw [List.singleton_append, readHeaderLoop, if_pos hl]
    · rename_i hl
      split at h
      · rename_i r hr
        obtain ⟨u, rfl, hu⟩ := ih _ a rest h
        refine ⟨l :: u, rfl, fun rest' hr' => ?_⟩
        rw [List.cons_append, readHeaderLoop, if_neg hl, hr]
        exact hu rest' hr'
      · rename_i hr
        obtain ⟨u, rfl, hu⟩ := ih _ a rest h
        refine ⟨l :: u, rfl, fun rest' hr' => ?_⟩
        rw [List.cons_append, readHeaderLoop, if_neg hl, hr]
        exact hu rest' hr'

theorem local_header : Local readHeader := by
  intro f a rest h
  unfold readHeader at h
  obtain ⟨g, h1, h2⟩ := bind_eq_ok.1 h
  cases f with
  | nil => cases h1
  | cons l ls =>
    rw [checkKeyword] at h1
    split at h1
    · rename_i hl
      cases h1
      obtain ⟨u, rfl, hu⟩ := local_headerLoop none _ _ _ h2
      refine ⟨l :: u, rfl, fun rest' hr => ?_⟩
      unfold readHeader
      rw [List.cons_append, checkKeyword, if_pos hl, ok_bind]
      exact hu rest' hr
    · cases h1

theorem local_crsLoop : ∀ (c : Crs), Local (readCrsLoop c) := by
  intro c f
  induction f generalizing c with
  | nil => intro a rest h; cases h
  | cons l ls ih =>
    intro a rest h
    rw [readCrsLoop] at h
    split at h
    · rename_i hl
      cases h
      refine ⟨[l], rfl, fun rest' _ => ?_⟩
      rw [List.singleton_append, readCrsLoop, if_pos hl]
    · rename_i hl
      obtain ⟨c', h1, h2⟩ := bind_eq_ok.1 h
      obtain ⟨u, rfl, hu⟩ := ih _ a rest h2
      refine ⟨l :: u, rfl, fun rest' hr => ?_⟩
      rw [List.cons_append, readCrsLoop, if_neg hl, h1, ok_bind]
      exact hu rest' hr

/-- A reader that looks at the next line. -/
theorem local_peek {α : Type} {kw : Str} {d : α} {K : Str → File → Res (α × File)} (hK : ∀ l, Local (K l)) :
    Local fun f => match nextKeyword? kw f with
      | (none, f) => .ok (d, f)
      | (some l, f) => K l f := by
  intro f a rest h
  cases f with
  | nil =>
    cases h
    refine ⟨[], rfl, fun rest' hr => ?_⟩
    cases rest' with
    | nil => rfl
    | cons x r => cases hr
  | cons l ls =>
    by_cases hl : startsWith l kw = true
    · have step : ∀ ls, nextKeyword? kw (l :: ls) = (some l, ls) := fun ls => by rw [nextKeyword?, if_pos hl]
      simp only [step] at h
      obtain ⟨u, rfl, hu⟩ := hK l _ _ _ h
      refine ⟨l :: u, rfl, fun rest' hr => ?_⟩
      simp only [List.cons_append, step]
      exact hu rest' hr
    · have step : ∀ ls, nextKeyword? kw (l :: ls) = (none, l :: ls) := fun ls => by rw [nextKeyword?, if_neg hl]
      simp only [step] at h
      cases h
      refine ⟨[], rfl, fun rest' hr => ?_⟩
      cases rest' with
      | nil => cases hr
      | cons x r =>
        cases hr
        simp only [List.nil_append, step]

theorem local_crs : Local readCrs := local_peek (K := fun _ => readCrsLoop {}) fun _ => local_crsLoop {}

theorem local_line {α : Type} (kw : Str) (g : Str → Res α) : Local fun f => gotoKeyword kw f >>= fun r => g r.1 >>= fun a => .ok (a, r.2) :=
  Local.bind (local_goto kw) fun l => local_pure (g l)

theorem local_oneString (kw : Str) (n : Nat) : Local (readOneString kw n) :=
  Local.bind (local_goto kw) fun _ => local_step _ fun _ => local_pure _

theorem local_twoStrings (kw : Str) (n : Nat) : Local (readTwoStrings kw n) := Local.bind (local_goto kw) fun _ => local_pure _

theorem local_oneDouble (kw : Str) (n : Nat) : Local (readOneDouble (D := D) kw n) :=
  Local.bind (local_goto kw) fun _ => local_step _ fun _ => local_pure _

theorem local_oneIndex (kw : Str) (n : Nat) : Local (readOneIndex kw n) :=
  Local.bind (local_goto kw) fun _ => local_step _ fun _ => local_pure _

theorem local_ite {α : Type} {c : Prop} [Decidable c] {R K : File → Res (α × File)} (h1 : Local R) (h2 : Local K) : Local fun f => if c then R f else K f := by
  by_cases h : c
  · simpa only [if_pos h] using h1
  · simpa only [if_neg h] using h2

theorem local_done {α : Type} (a : α) : Local fun f => .ok (a, f) := by
  intro f b rest h
  cases h
  exact ⟨[], rfl, fun _ _ => rfl⟩

/-- What `readPropHeader` does once the line of the names has been read. -/
def propLines (p : Str) (line : Str) (f : File) : Res (PropHeader D × File) :=
  splitQuoted line >>= fun toks => if toks.tail.length = 0 then .ok ({}, f) else
    readTwoStrings (p ++ cs!"PROP_LEGAL_RANGES") toks.tail.length f >>= fun r1 =>
    readOneDouble (p ++ cs!"NO_DATA_VALUES") toks.tail.length r1.2 >>= fun r2 =>
    readOneString (p ++ cs!"PROPERTY_CLASSES") toks.tail.length r2.2 >>= fun r3 =>
    readOneString (p ++ cs!"PROPERTY_KINDS") toks.tail.length r3.2 >>= fun r4 =>
    readTwoStrings (p ++ cs!"PROPERTY_SUBCLASSES") toks.tail.length r4.2 >>= fun r5 =>
    readOneIndex (p ++ cs!"ESIZES") toks.tail.length r5.2 >>= fun r6 =>
    readOneString (p ++ cs!"UNITS") toks.tail.length r6.2 >>= fun r7 =>
    .ok ({ names := toks.tail, ranges := r1.1, noData := r2.1, classes := r3.1, kinds := r4.1, subclasses := r5.1, esizes := r6.1, units := r7.1 }, r7.2)

theorem readPropHeader_eq (p : Str) : readPropHeader (D := D) p = fun f => match nextKeyword? (p ++ cs!"PROPERTIES") f with
    | (none, f) => .ok ({}, f)
    | (some l, f) => propLines (D := D) p l f := by
  funext f
  unfold readPropHeader propLines
  split
  · rename_i h; simp only [h]
  · rename_i h; simp only [h]; rfl

theorem local_propLines (p line : Str) : Local (propLines (D := D) p line) := by
  unfold propLines
  refine local_step _ fun toks => local_ite (local_done _) ?_
  refine Local.bind (local_twoStrings _ _) fun a1 => ?_
  dsimp only
  refine Local.bind (local_oneDouble (D := D) _ _) fun a2 => ?_
  dsimp only
  refine Local.bind (local_oneString _ _) fun a3 => ?_
  dsimp only
  refine Local.bind (local_oneString _ _) fun a4 => ?_
  dsimp only
  refine Local.bind (local_twoStrings _ _) fun a5 => ?_
  dsimp only
  refine Local.bind (local_oneIndex _ _) fun a6 => ?_
  dsimp only
  exact Local.bind (local_oneString _ _) fun a7 => by dsimp only; exact local_done _

theorem local_propHeader (p : Str) : Local (readPropHeader (D := D) p) := by
  rw [readPropHeader_eq]
  exact local_peek (K := propLines (D := D) p) (local_propLines p)

/-! ## The parts of a file -/

/-- The parts of `loadLso` before the vertices. -/
def readStart (f : File) : Res ((Option Str × Crs × PropHeader D × PropHeader D) × File) :=
  gotoKeyword cs!"GOCAD LightTSolid" f >>= fun r0 => readHeader r0.2 >>= fun r1 => readCrs r1.2 >>= fun r2 =>
  readPropHeader [] r2.2 >>= fun r3 => readPropHeader cs!"TETRA_" r3.2 >>= fun r4 => .ok ((r1.1, r2.1, r3.1, r4.1), r4.2)

theorem local_start : Local (readStart (D := D)) := by
  unfold readStart
  refine Local.bind (local_goto _) fun a0 => ?_
  dsimp only
  refine Local.bind local_header fun a1 => ?_
  dsimp only
  refine Local.bind (R := readCrs) local_crs fun a2 => ?_
  dsimp only
  refine Local.bind (R := readPropHeader (D := D) []) (local_propHeader _) fun a3 => ?_
  dsimp only
  exact Local.bind (R := readPropHeader (D := D) cs!"TETRA_") (local_propHeader _) fun a4 => by dsimp only; exact local_done _

/-- The solid before its vertices are read. -/
def noSolid (vh th : PropHeader D) : Solid D := { vattrs := vh.names.map fun _ => [], tattrs := th.names.map fun _ => [] }

/-- The parts of `loadLso` after the tetrahedra and their indicators. -/
def readModel (name : Option Str) (vh th : PropHeader D) (s : Solid D) (l : Str) (f : File) : Res (Loaded D) :=
  readSurfaces s l f >>= fun r => readBlocks ⟨vh, th⟩ s r.1 ([], false) r.2.1 r.2.2 >>= fun b =>
  .ok { name, solid := s, horizons := r.1.horizons, surfaces := r.1.surfaces, blocks := b.1, inspect := r.1.inspect || b.2 }

theorem loadLso_parts (f : File) : loadLso (D := D) f = readStart f >>= fun r0 =>
    readVertices r0.1.2.1.zPos r0.1.2.2.1.esizes (noSolid r0.1.2.2.1 r0.1.2.2.2) r0.2 >>= fun r1 => skipSection cs!"VERTEX" r1.2.1 r1.2.2 >>= fun r2 =>
    readTetras r0.1.2.2.2.esizes r1.1 r2.1 r2.2 >>= fun r3 => skipSection cs!"TETRA" r3.2.1 r3.2.2 >>= fun r4 =>
    readModel r0.1.1 r0.1.2.2.1 r0.1.2.2.2 r3.1 r4.1 r4.2 := by
  unfold loadLso readStart readModel noSolid
  simp only [Res.bind_assoc', ok_bind]
  rfl

/-! ## Sections -/

/-- The lines of a section: one for which `opens` holds, lines that do not close it, and one that closes it. -/
def Section (opens : Str → Prop) (closing : Str) (v : File) : Prop :=
  ∃ b body e, v = b :: (body ++ [e]) ∧ opens b ∧ (∀ x ∈ body, startsWith x closing = false) ∧ startsWith e closing = true

/-- The indicators of the vertices. -/
def VertexSection : File → Prop :=
  Section (fun b => startsWith b cs!"BEGIN_VERTEX_REGION_INDICATORS" = true ∧ contains cs!"VRTX" b = false) cs!"END_VERTEX_REGION_INDICATORS"

/-- The indicators of the tetrahedra. -/
def TetraSection : File → Prop :=
  Section (fun b => startsWith b cs!"BEGIN_TETRA_REGION_INDICATORS" = true) cs!"END_TETRA_REGION_INDICATORS"

/-- The first line is neither a vertex nor the start of the indicators of the vertices. -/
def NoVertex (t : File) : Prop :=
  ∃ y, t.head? = some y ∧ contains cs!"VRTX" y = false ∧ startsWith y cs!"BEGIN_VERTEX_REGION_INDICATORS" = false

/-- The first line is neither a tetrahedron nor the start of the indicators of the tetrahedra. -/
def NoTetra (c : File) : Prop :=
  ∃ y, c.head? = some y ∧ startsWith y cs!"TETRA" = false ∧ startsWith y cs!"BEGIN_TETRA_REGION_INDICATORS" = false

theorem goto_split {kw : Str} {f g : File} {e : Str} (h : gotoKeyword kw f = .ok (e, g)) :
    ∃ body, f = body ++ e :: g ∧ (∀ x ∈ body, startsWith x kw = false) ∧ startsWith e kw = true := by
  induction f with
  | nil => cases h
  | cons l ls ih =>
    by_cases hl : startsWith l kw = true
    · rw [gotoKeyword_here hl] at h
      cases h
      exact ⟨[], rfl, by simp, hl⟩
    · have step : gotoKeyword kw (l :: ls) = gotoKeyword kw ls := by simp [gotoKeyword, gotoKeyword?, hl]
      rw [step] at h
      obtain ⟨body, rfl, h1, h2⟩ := ih h
      refine ⟨l :: body, rfl, ?_, h2⟩
      intro x hx
      rcases List.mem_cons.1 hx with rfl | hx
      · simpa using hl
      · exact h1 x hx

theorem skip_section {kind b e l : Str} {body f : File} (hb : startsWith b (cs!"BEGIN_" ++ kind ++ cs!"_REGION_INDICATORS") = true)
    (h : ∀ x ∈ body, startsWith x (cs!"END_" ++ kind ++ cs!"_REGION_INDICATORS") = false)
    (he : startsWith e (cs!"END_" ++ kind ++ cs!"_REGION_INDICATORS") = true) :
    skipSection kind b (body ++ e :: l :: f) = .ok (l, f) := by
  unfold skipSection
  rw [if_pos hb, gotoKeyword_skip h, gotoKeyword_here he]
  rfl

theorem skip_open {kind b : Str} {r : File} (hb : startsWith b (cs!"BEGIN_" ++ kind ++ cs!"_REGION_INDICATORS") = true)
    (h : ∀ x ∈ r, startsWith x (cs!"END_" ++ kind ++ cs!"_REGION_INDICATORS") = false) : skipSection kind b r = .throw := by
  unfold skipSection
  have := gotoKeyword_skip h []
  rw [List.append_nil] at this
  rw [if_pos hb, this]
  rfl

theorem skip_inv {kind l l' : Str} {f f' : File} (h : skipSection kind l f = .ok (l', f')) :
    (startsWith l (cs!"BEGIN_" ++ kind ++ cs!"_REGION_INDICATORS") = false ∧ l' = l ∧ f' = f) ∨ (l' = [] ∧ f' = []) ∨
      ∃ v, l :: f = v ++ l' :: f' ∧
        Section (fun b => b = l ∧ startsWith b (cs!"BEGIN_" ++ kind ++ cs!"_REGION_INDICATORS") = true) (cs!"END_" ++ kind ++ cs!"_REGION_INDICATORS") v := by
  unfold skipSection at h
  split at h
  · rename_i hb
    obtain ⟨⟨e, g⟩, h1, h2⟩ := bind_eq_ok.1 h
    obtain ⟨body, rfl, hbody, he⟩ := goto_split h1
    cases g with
    | nil => cases h2; exact .inr (.inl ⟨rfl, rfl⟩)
    | cons x g =>
      cases h2
      exact .inr (.inr ⟨l :: (body ++ [e]), by simp, l, body, e, rfl, ⟨rfl, hb⟩, hbody, he⟩)
  · rename_i hb
    cases h
    exact .inl ⟨by simpa using hb, rfl, rfl⟩

/-! ## Vertices and tetrahedra -/

theorem verticesLoop_local {z : Bool} {es : List Nat} {f : File} {s s' : Solid D} {l : Str} {rest : File}
    (h : readVerticesLoop z es s f = .ok (s', l, rest)) : (l = [] ∧ rest = []) ∨ ∃ used, f = used ++ l :: rest ∧ contains cs!"VRTX" l = false ∧
      (∀ x ∈ used, contains cs!"VRTX" x = true) ∧
      ∀ (l' : Str) (rest' : File), contains cs!"VRTX" l' = false → readVerticesLoop z es s (used ++ l' :: rest') = .ok (s', l', rest') := by
  induction f generalizing s with
  | nil => cases h; exact .inl ⟨rfl, rfl⟩
  | cons x f ih =>
    rw [readVerticesLoop] at h
    split at h
    · rename_i hx
      obtain ⟨s1, h1, h2⟩ := bind_eq_ok.1 h
      rcases ih h2 with e | ⟨u, rfl, hl, hu, hr⟩
      · exact .inl e
      · refine .inr ⟨x :: u, rfl, hl, ?_, ?_⟩
        · intro y hy
          rcases List.mem_cons.1 hy with rfl | hy
          · exact hx
          · exact hu y hy
        · intro l' rest' hl'
          rw [List.cons_append, readVerticesLoop, if_pos hx, h1, ok_bind]
          exact hr l' rest' hl'
    · rename_i hx
      cases h
      refine .inr ⟨[], rfl, by simpa using hx, by simp, ?_⟩
      intro l' rest' hl'
      rw [List.nil_append, readVerticesLoop, if_neg (by simp [hl'])]

theorem vertices_local {z : Bool} {es : List Nat} {f : File} {s s' : Solid D} {l : Str} {rest : File}
    (h : readVertices z es s f = .ok (s', l, rest)) : (l = [] ∧ rest = []) ∨ ∃ used, f = used ++ l :: rest ∧ contains cs!"VRTX" l = false ∧
      (∃ x, used.getLast? = some x ∧ (contains cs!"VRTX" x = true ∨ [cs!"VRTX", cs!"PVRTX"].any (startsWith x) = true)) ∧
      ∀ (l' : Str) (rest' : File), contains cs!"VRTX" l' = false → readVertices z es s (used ++ l' :: rest') = .ok (s', l', rest') := by
  unfold readVertices at h
  obtain ⟨⟨x, g⟩, h1, h2⟩ := bind_eq_ok.1 h
  obtain ⟨s1, h3, h4⟩ := bind_eq_ok.1 h2
  have hx : ∃ u, f = u ++ x :: g ∧ [cs!"VRTX", cs!"PVRTX"].any (startsWith x) = true ∧
      ∀ g', gotoKeywords [cs!"VRTX", cs!"PVRTX"] (u ++ x :: g') = .ok (x, g') := by
    clear h h2 h3 h4
    induction f with
    | nil => cases h1
    | cons y f ih =>
      rw [gotoKeywords] at h1
      split at h1
      · rename_i hy
        cases h1
        exact ⟨[], rfl, hy, fun g' => by rw [List.nil_append, gotoKeywords, if_pos hy]⟩
      · rename_i hy
        obtain ⟨u, rfl, h5, h6⟩ := ih h1
        exact ⟨y :: u, rfl, h5, fun g' => by rw [List.cons_append, gotoKeywords, if_neg hy, h6]⟩
  obtain ⟨u, rfl, hk, hu⟩ := hx
  rcases verticesLoop_local h4 with e | ⟨w, rfl, hl, hw, hr⟩
  · exact .inl e
  · refine .inr ⟨u ++ x :: w, by simp, hl, ?_, ?_⟩
    · cases hc : w.getLast? with
      | none =>
        rw [List.getLast?_eq_none_iff] at hc
        subst hc
        exact ⟨x, by simp, .inr hk⟩
      | some y =>
        refine ⟨y, ?_, .inl (hw y (List.mem_of_getLast? hc))⟩
        rw [List.getLast?_append, List.getLast?_cons, hc]
        rfl
    · intro l' rest' hl'
      unfold readVertices
      rw [List.append_assoc, List.cons_append, hu, ok_bind]
      simp only [h3, ok_bind]
      exact hr l' rest' hl'

theorem tetras_local {es : List Nat} : ∀ (n : Nat) {f : File} {s s' : Solid D} {x l : Str} {rest : File}, f.length ≤ n →
    readTetras es s x f = .ok (s', l, rest) → (l = [] ∧ rest = []) ∨ ∃ used, f = used ++ l :: rest ∧ startsWith l cs!"TETRA" = false ∧
      ∀ (l' : Str) (rest' : File), startsWith l' cs!"TETRA" = false → readTetras es s x (used ++ l' :: rest') = .ok (s', l', rest') := by
  intro n
  induction n with
  | zero =>
    intro f s s' x l rest hn h
    cases f with
    | nil =>
      rw [readTetras] at h
      obtain ⟨s1, h1, h2⟩ := bind_eq_ok.1 h
      cases h2; exact .inl ⟨rfl, rfl⟩
    | cons => simp at hn
  | succ n ih =>
    intro f s s' x l rest hn h
    match f, hn, h with
    | [], _, h =>
      rw [readTetras] at h
      obtain ⟨s1, h1, h2⟩ := bind_eq_ok.1 h
      cases h2; exact .inl ⟨rfl, rfl⟩
    | [l2], _, h =>
      rw [readTetras] at h
      obtain ⟨s1, h1, h2⟩ := bind_eq_ok.1 h
      cases h2; exact .inl ⟨rfl, rfl⟩
    | l2 :: l3 :: f, hn, h =>
      rw [readTetras] at h
      obtain ⟨s1, h1, h2⟩ := bind_eq_ok.1 h
      split at h2
      · rename_i h3
        rcases ih (by simp at hn; omega) h2 with e | ⟨u, rfl, hl, hr⟩
        · exact .inl e
        · refine .inr ⟨l2 :: l3 :: u, rfl, hl, ?_⟩
          intro l' rest' hl'
          rw [List.cons_append, List.cons_append, readTetras, h1, ok_bind, if_pos h3]
          exact hr l' rest' hl'
      · rename_i h3
        cases h2
        refine .inr ⟨[l2], rfl, by simpa using h3, ?_⟩
        intro l' rest' hl'
        rw [List.cons_append, List.nil_append, readTetras, h1, ok_bind, if_neg (by simp [hl'])]
        rfl

theorem vertex_keyword {x : Str} (h : [cs!"VRTX", cs!"PVRTX"].any (startsWith x) = true) : contains cs!"VRTX" x = true := by
  simp only [List.any_cons, List.any_nil, Bool.or_false, Bool.or_eq_true, startsWith] at h
  rcases h with h | h
  · obtain ⟨r, rfl⟩ := List.isPrefixOf_iff_prefix.1 h
    simp [contains, List.isPrefixOf]
  · obtain ⟨r, rfl⟩ := List.isPrefixOf_iff_prefix.1 h
    simp [contains, List.isPrefixOf]

theorem begin_not_tetra {b : Str} (h : startsWith b cs!"BEGIN_TETRA_REGION_INDICATORS" = true) : startsWith b cs!"TETRA" = false := by
  unfold startsWith at h ⊢
  obtain ⟨r, rfl⟩ := List.isPrefixOf_iff_prefix.1 h
  simp [List.isPrefixOf]

/-! ## Loading -/

theorem section_lines {opens : Str → Prop} {closing : Str} {v : File} (h : Section opens closing v) (r : File) :
    ∃ b body e, v ++ r = b :: (body ++ e :: r) ∧ opens b ∧ (∀ x ∈ body, startsWith x closing = false) ∧ startsWith e closing = true := by
  obtain ⟨b, body, e, rfl, h1, h2, h3⟩ := h
  exact ⟨b, body, e, by simp, h1, h2, h3⟩

/-- The file of a model that is loaded is made of the lines up to the last vertex, at most one section of indicators of the vertices, the
lines of the tetrahedra, at most one section of indicators of the tetrahedra, and the rest; the model does not depend on the sections,
which may be changed, added or removed.  If a section is opened there and nothing after closes it, the file is refused. -/
theorem sections_skipped {f : File} {L : Loaded D} (h : loadLso f = .ok L) : ∃ a v t w c, f = a ++ v ++ t ++ w ++ c ∧
    (∃ x, a.getLast? = some x ∧ contains cs!"VRTX" x = true) ∧ (v = [] ∧ NoVertex t ∨ VertexSection v) ∧ (w = [] ∧ NoTetra c ∨ TetraSection w) ∧
    (∀ v' w', (v' = [] ∧ NoVertex t ∨ VertexSection v') → (w' = [] ∧ NoTetra c ∨ TetraSection w') → loadLso (a ++ v' ++ t ++ w' ++ c) = .ok L) ∧
    (∀ (b : Str) (r : File), startsWith b cs!"BEGIN_VERTEX_REGION_INDICATORS" = true → contains cs!"VRTX" b = false →
      (∀ x ∈ r, startsWith x cs!"END_VERTEX_REGION_INDICATORS" = false) → loadLso (D := D) (a ++ b :: r) = .throw) ∧
    (∀ (v' : File) (b : Str) (r : File), (v' = [] ∧ NoVertex t ∨ VertexSection v') → startsWith b cs!"BEGIN_TETRA_REGION_INDICATORS" = true →
      (∀ x ∈ r, startsWith x cs!"END_TETRA_REGION_INDICATORS" = false) → loadLso (D := D) (a ++ v' ++ t ++ b :: r) = .throw) := by
  rw [loadLso_parts] at h
  obtain ⟨⟨⟨name, crs, vh, th⟩, f0⟩, h0, h⟩ := bind_eq_ok.1 h
  obtain ⟨⟨s1, l1, f1⟩, h1, h⟩ := bind_eq_ok.1 h
  obtain ⟨⟨l2, f2⟩, h2, h⟩ := bind_eq_ok.1 h
  obtain ⟨⟨s3, l3, f3⟩, h3, h⟩ := bind_eq_ok.1 h
  obtain ⟨⟨l4, f4⟩, h4, hend⟩ := bind_eq_ok.1 h
  clear h
  dsimp only at h1 h2 h3 h4 hend
  have hm : ¬ (l4 = [] ∧ f4 = []) := by
    rintro ⟨rfl, rfl⟩
    cases hend
  have ht : ¬ (l2 = [] ∧ f2 = []) := by
    rintro ⟨rfl, rfl⟩
    cases h3
  have hskip : ∀ kind : Str, kind = cs!"VERTEX" ∨ kind = cs!"TETRA" → skipSection kind [] [] = .ok ([], []) := by
    rintro kind (rfl | rfl) <;> rfl
  have hv : ¬ (l1 = [] ∧ f1 = []) := by
    rintro ⟨rfl, rfl⟩
    rw [hskip _ (.inl rfl)] at h2
    cases h2
    exact ht ⟨rfl, rfl⟩
  have hx : ¬ (l3 = [] ∧ f3 = []) := by
    rintro ⟨rfl, rfl⟩
    rw [hskip _ (.inr rfl)] at h4
    cases h4
    exact hm ⟨rfl, rfl⟩
  obtain ⟨u0, rfl, H0⟩ := local_start _ _ _ h0
  obtain ⟨u1, rfl, hl1, ⟨x, hx1, hx2⟩, H1⟩ := (vertices_local h1).resolve_left hv
  obtain ⟨u2, rfl, hl3, H2⟩ := (tetras_local _ (Nat.le_refl _) h3).resolve_left hx
  have hu1 : ∃ y u, u1 = y :: u := by
    cases u1 with
    | nil => cases hx1
    | cons y u => exact ⟨y, u, rfl⟩
  have hV : ∃ v, l1 :: f1 = v ++ l2 :: (u2 ++ l3 :: f3) ∧ (v = [] ∧ NoVertex (l2 :: u2) ∨ VertexSection v) := by
    rcases skip_inv h2 with ⟨hb, rfl, rfl⟩ | e | ⟨v, e, b, body, c, rfl, ⟨rfl, hb⟩, hbody, hc⟩
    · exact ⟨[], rfl, .inl ⟨rfl, _, rfl, hl1, hb⟩⟩
    · exact absurd e ht
    · exact ⟨_, e, .inr ⟨_, body, c, rfl, ⟨hb, hl1⟩, hbody, hc⟩⟩
  have hW : ∃ w, l3 :: f3 = w ++ l4 :: f4 ∧ (w = [] ∧ NoTetra (l4 :: f4) ∨ TetraSection w) := by
    rcases skip_inv h4 with ⟨hb, rfl, rfl⟩ | e | ⟨w, e, b, body, c, rfl, ⟨rfl, hb⟩, hbody, hc⟩
    · exact ⟨[], rfl, .inl ⟨rfl, _, rfl, hl3, hb⟩⟩
    · exact absurd e hm
    · exact ⟨_, e, .inr ⟨_, body, c, rfl, hb, hbody, hc⟩⟩
  obtain ⟨v, ev, hV⟩ := hV
  obtain ⟨w, ew, hW⟩ := hW
  have hS : ∀ z k, contains cs!"VRTX" z = false → loadLso (D := D) (u0 ++ (u1 ++ z :: k)) = skipSection cs!"VERTEX" z k >>= fun r2 =>
      readTetras th.esizes s1 r2.1 r2.2 >>= fun r3 => skipSection cs!"TETRA" r3.2.1 r3.2.2 >>= fun r4 => readModel name vh th r3.1 r4.1 r4.2 := by
    intro z k hz
    rw [loadLso_parts, H0 _ (by obtain ⟨y, u, rfl⟩ := hu1; rfl), ok_bind]
    dsimp only
    rw [H1 z k hz, ok_bind]
  have hT : ∀ (v' : File) (y : Str) (g : File), (v' = [] ∧ NoVertex (l2 :: u2) ∨ VertexSection v') → startsWith y cs!"TETRA" = false →
      loadLso (D := D) (u0 ++ u1 ++ v' ++ l2 :: u2 ++ y :: g) = skipSection cs!"TETRA" y g >>= fun r4 => readModel name vh th s3 r4.1 r4.2 := by
    intro v' y g hv' hy
    have hN : ∃ z k, v' ++ l2 :: (u2 ++ y :: g) = z :: k ∧ contains cs!"VRTX" z = false ∧ skipSection cs!"VERTEX" z k = .ok (l2, u2 ++ y :: g) := by
      rcases hv' with ⟨rfl, z, hz, hz1, hz2⟩ | hv'
      · cases hz
        refine ⟨_, _, rfl, hz1, ?_⟩
        unfold skipSection
        rw [if_neg]
        simpa using hz2
      · obtain ⟨b, body, e, e1, ⟨hb, hb2⟩, hbody, he⟩ := section_lines hv' (l2 :: (u2 ++ y :: g))
        exact ⟨b, _, e1, hb2, skip_section hb hbody he⟩
    obtain ⟨z, k, ez, hz, hzS⟩ := hN
    have e : u0 ++ u1 ++ v' ++ l2 :: u2 ++ y :: g = u0 ++ (u1 ++ z :: k) := by
      rw [← ez]; simp
    rw [e, hS z k hz, hzS, ok_bind]
    dsimp only
    rw [H2 y g hy, ok_bind]
  refine ⟨u0 ++ u1, v, l2 :: u2, w, l4 :: f4, ?_, ⟨x, ?_, ?_⟩, hV, hW, ?_, ?_, ?_⟩
  · rw [ev, ew]; simp
  · rw [List.getLast?_append, hx1]; rfl
  · rcases hx2 with hx2 | hx2
    · exact hx2
    · exact vertex_keyword hx2
  · intro v' w' hv' hw'
    have hM : ∃ y g, w' ++ l4 :: f4 = y :: g ∧ startsWith y cs!"TETRA" = false ∧ skipSection cs!"TETRA" y g = .ok (l4, f4) := by
      rcases hw' with ⟨rfl, y, hy, hy1, hy2⟩ | hw'
      · cases hy
        refine ⟨_, _, rfl, hy1, ?_⟩
        unfold skipSection
        rw [if_neg]
        simpa using hy2
      · obtain ⟨b, body, e, e1, hb, hbody, he⟩ := section_lines hw' (l4 :: f4)
        exact ⟨b, _, e1, begin_not_tetra hb, skip_section hb hbody he⟩
    obtain ⟨y, g, ey, hy, hyS⟩ := hM
    rw [List.append_assoc _ w', ey, hT v' y g hv' hy, hyS, ok_bind]
    exact hend
  · intro b r hb hb2 hr
    rw [List.append_assoc, hS b r hb2, skip_open hb hr]
    rfl
  · intro v' b r hv' hb hr
    rw [hT v' b r hv' (begin_not_tetra hb), skip_open hb hr]
    rfl

/-! A model with two blocks, written and given indicators. -/

/-- The lines of the vertices of the file, of the tetrahedra, and the rest, with sections of indicators between them. -/
def indicated (v w : File) : File :=
  let n := (LsoCut.twoFile.takeWhile fun l => !startsWith l cs!"TETRA").length
  let k := (LsoCut.twoFile.takeWhile fun l => !startsWith l cs!"MODEL").length
  LsoCut.twoFile.take n ++ v ++ (LsoCut.twoFile.drop n).take (k - n) ++ w ++ LsoCut.twoFile.drop k

/-- Indicators of vertices. -/
def someVertices : File := [cs!"BEGIN_VERTEX_REGION_INDICATORS", cs!"TETRA 1 2 3 4", cs!"MODEL", cs!"END_VERTEX_REGION_INDICATORS"]

/-- Indicators of tetrahedra. -/
def someTetras : File := [cs!"BEGIN_TETRA_REGION_INDICATORS", cs!"END_VERTEX_REGION_INDICATORS", cs!"MODEL", cs!"END_TETRA_REGION_INDICATORS"]

example : VertexSection someVertices := ⟨_, [cs!"TETRA 1 2 3 4", cs!"MODEL"], _, rfl, by decide, by decide, by decide⟩

example : TetraSection someTetras := ⟨_, [cs!"END_VERTEX_REGION_INDICATORS", cs!"MODEL"], _, rfl, by decide, by decide, by decide⟩

/-- The files with indicators give the same model. -/
def withModel : Res (Loaded Int) → Bool
  | .ok L => decide (L.blocks.length = 2 ∧ loadLso (indicated [] []) = .ok L ∧ loadLso (indicated someVertices []) = .ok L ∧
      loadLso (indicated [] someTetras) = .ok L ∧ loadLso (indicated someVertices someTetras) = .ok L)
  | _ => false

example : ∃ L : Loaded Int, loadLso LsoCut.twoFile = .ok L ∧ L.blocks.length = 2 ∧ loadLso (indicated [] []) = .ok L ∧
    loadLso (indicated someVertices []) = .ok L ∧ loadLso (indicated [] someTetras) = .ok L ∧ loadLso (indicated someVertices someTetras) = .ok L := by
  have h : withModel (loadLso (D := Int) LsoCut.twoFile) = true := by decide +kernel
  cases hl : loadLso (D := Int) LsoCut.twoFile with
  | ok L => rw [hl] at h; exact ⟨L, rfl, of_decide_eq_true h⟩
  | throw => rw [hl] at h; cases h
  | ub => rw [hl] at h; cases h
  | diverge => rw [hl] at h; cases h

example : loadLso (D := Int) (indicated (someVertices.take 3) []) = .throw ∧ loadLso (D := Int) (indicated [] (someTetras.take 3)) = .throw := by decide +kernel

/-- The two sections are not exchanged: the indicators of tetrahedra are not skipped after the vertices, where they are read as a tetrahedron. -/
example : loadLso (D := Int) (indicated someTetras []) = .ub := by decide +kernel

end Verif.Props.LsoIndicators
