import Verif.Lemmas.GocadProps
import Verif.Model.GocadMesh

/-! # Lemmas for the round trips of `.ts`, `.vs` and `.pl` files -/

set_option linter.unusedSectionVars false

namespace Verif.GocadMesh

open Verif Verif.Gocad

variable {D : Type} [Num D]

/-! ## Property part of the written file -/

/-- The properties of a mesh that can be saved: the attributes of numbers, but for the coordinates. -/
def IsProperty (a : Attr D) : Prop := a.genericable = true ∧ a.name ≠ cs!"points"

theorem mem_written {attrs : List (Attr D)} {a : Attr D} : a ∈ written attrs ↔ a ∈ attrs ∧ IsProperty a := by
  unfold written IsProperty
  simp [List.mem_filter]

/-- Names that a writer can put in a property header. -/
def GoodNames (names : List Str) : Prop := ∀ s ∈ names, GoodName s

theorem goodProps_of {names : List Str} (hn : names ≠ []) (h : GoodNames names) :
    GoodProps (propHeaderOf names : PropHeader D) where
  nonempty := hn
  names := h
  ranges_len := by simp [propHeaderOf]
  ranges := by
    intro p hp
    obtain ⟨_, _, rfl⟩ := List.mem_map.1 hp
    decide
  noData_len := by simp [propHeaderOf]
  classes_len := by simp [propHeaderOf]
  classes := h
  kinds_len := by simp [propHeaderOf]
  kinds := by
    intro p hp
    obtain ⟨_, _, rfl⟩ := List.mem_map.1 hp
    decide
  subclasses_len := by simp [propHeaderOf]
  subclasses := by
    intro p hp
    obtain ⟨_, _, rfl⟩ := List.mem_map.1 hp
    decide
  esizes_len := by simp [propHeaderOf]
  esizes := by
    intro p hp
    obtain ⟨_, _, rfl⟩ := List.mem_map.1 hp
    decide
  units_len := by simp [propHeaderOf]
  units := by
    intro p hp
    obtain ⟨_, _, rfl⟩ := List.mem_map.1 hp
    decide

/-- The property header read back from a written file. -/
def readBackProps (names : List Str) : PropHeader D :=
  if names = [] then {}
  else { (propHeaderOf names : PropHeader D) with noData := names.map fun _ => Num.round Num.noData }

theorem readBackProps_names (names : List Str) : (readBackProps names : PropHeader D).names = names := by
  unfold readBackProps; split <;> simp_all [propHeaderOf]

theorem readBackProps_esizes (names : List Str) : (readBackProps names : PropHeader D).esizes = names.map fun _ => 1 := by
  unfold readBackProps; split <;> simp_all [propHeaderOf]

theorem readBackProps_noData (names : List Str) :
    (readBackProps names : PropHeader D).noData = names.map fun _ => Num.round Num.noData := by
  unfold readBackProps; split <;> simp_all

/-- The property class headers written after the property header. -/
def classLines (names : List Str) : File :=
  (xyzHeaders ++ names.map fun n => ({ name := n } : PropClassHeader)).flatMap writePropClassHeader

theorem readPropHeader_writeProps [LawfulNum D] {names : List Str} (h : GoodNames names) (rest : File) :
    readPropHeader (D := D) [] (writeProps D names ++ rest) = .ok (readBackProps names, classLines names ++ rest) := by
  unfold writeProps
  by_cases hn : names = []
  · subst hn
    have : readBackProps (D := D) [] = {} := rfl
    rw [this]
    exact readPropHeader_none (by rfl) _
  · have e : names.isEmpty = false := by simpa using hn
    simp only [e, Bool.false_eq_true, if_false, List.append_assoc]
    rw [readPropHeader_write (goodProps_of hn h)]
    simp only [readBackProps, hn, if_false, propHeaderOf, List.map_map]
    rfl

/-- Every line of a property class header starts with one of these. -/
theorem classLines_head {names : List Str} {l : Str} (h : l ∈ classLines names) :
    (∃ r, l = cs!"PROPERTY_CLASS_HEADER " ++ r) ∨ (∃ r, l = cs!"kind:" ++ r) ∨ (∃ r, l = cs!"unit:" ++ r)
      ∨ (∃ r, l = cs!"name:" ++ r) ∨ l = cs!"is_Z: on" ∨ l = cs!"}" := by
  obtain ⟨p, _, hp⟩ := List.mem_flatMap.1 h
  unfold writePropClassHeader at hp
  simp only [List.mem_append, List.mem_cons, List.not_mem_nil, or_false] at hp
  rcases hp with ((rfl | rfl | rfl | rfl) | hp) | rfl
  · left; exact ⟨p.name ++ cs!" {", by rw [List.append_assoc]⟩
  · right; left; exact ⟨_, rfl⟩
  · right; right; left; exact ⟨_, rfl⟩
  · right; right; right; left; exact ⟨_, rfl⟩
  · split at hp
    · simp at hp; simp [hp]
    · simp at hp
  · simp

theorem classLines_tface {names : List Str} {l : Str} (h : l ∈ classLines names) : startsWith l cs!"TFACE" = false := by
  rcases classLines_head h with ⟨r, rfl⟩ | ⟨r, rfl⟩ | ⟨r, rfl⟩ | ⟨r, rfl⟩ | rfl | rfl <;> rfl

theorem classLines_iline {names : List Str} {l : Str} (h : l ∈ classLines names) : startsWith l cs!"ILINE" = false := by
  rcases classLines_head h with ⟨r, rfl⟩ | ⟨r, rfl⟩ | ⟨r, rfl⟩ | ⟨r, rfl⟩ | rfl | rfl <;> rfl

theorem classLines_vrtx {names : List Str} {l : Str} (h : l ∈ classLines names) :
    [cs!"VRTX", cs!"PVRTX"].any (startsWith l) = false := by
  rcases classLines_head h with ⟨r, rfl⟩ | ⟨r, rfl⟩ | ⟨r, rfl⟩ | ⟨r, rfl⟩ | rfl | rfl <;> rfl

/-! ## Vertex lines -/

theorem isTok_toks [LawfulNum D] (p : Pt D) : ∀ t ∈ p.toks, IsTok t := by
  intro t ht
  simp only [Pt.toks, List.mem_cons, List.not_mem_nil, or_false] at ht
  rcases ht with rfl | rfl | rfl <;> exact LawfulNum.fmt_tok _

theorem isTok_valueToks [LawfulNum D] (as : List (Attr D)) (v : Nat) : ∀ t ∈ valueToks as v, IsTok t := by
  intro t ht
  obtain ⟨a, _, rfl⟩ := List.mem_map.1 ht
  exact LawfulNum.fmt_tok _

theorem split_vrtxLine [LawfulNum D] {kw : Str} (hk : IsTok kw) (as : List (Attr D)) (id v : Nat) (p : Pt D) :
    split (vrtxLine kw as id v p) = kw :: showNat id :: (p.toks ++ valueToks as v) := by
  unfold vrtxLine
  rw [split_kw_spaced hk]
  intro t ht
  rcases List.mem_cons.1 ht with rfl | ht
  · exact isTok_showNat _
  rcases List.mem_append.1 ht with ht | ht
  · exact isTok_toks p t ht
  · exact isTok_valueToks as v t ht

theorem readPoint_toks [LawfulNum D] (kw id : Str) (p : Pt D) (vals : List Str) :
    readPoint true (kw :: id :: (p.toks ++ vals)) = .ok p.round := by
  simp [readPoint, Pt.toks, Pt.round]

/-- The keyword of vertex lines. -/
def IsVrtxKw (kw : Str) : Prop := kw = cs!"VRTX" ∨ kw = cs!"PVRTX"

theorem IsVrtxKw.tok {kw : Str} (h : IsVrtxKw kw) : IsTok kw := by
  rcases h with rfl | rfl <;> decide

theorem IsVrtxKw.ne_end {kw : Str} (h : IsVrtxKw kw) : kw ≠ cs!"END" := by
  rcases h with rfl | rfl <;> decide

theorem isVrtxKw_vrtxKeyword (as : List (Attr D)) : IsVrtxKw (vrtxKeyword as) := by
  unfold vrtxKeyword; split
  · left; rfl
  · right; rfl

/-- The values read for an attribute at the vertices listed. -/
def colOf (vs : List Nat) (a : Attr D) : List D := vs.map fun v => Num.round (Num.castF (a.val v))

theorem colOf_append (vs ws : List Nat) (a : Attr D) : colOf (vs ++ ws) a = colOf vs a ++ colOf ws a := by
  simp [colOf]

theorem readProperties_line [LawfulNum D] (as : List (Attr D)) (kw id : Str) (p : Pt D) (v : Nat) (vs : List Nat) :
    readProperties (as.map fun _ => 1) (as.map (colOf vs)) ((kw :: id :: (p.toks ++ valueToks as v)).drop 5) =
      .ok (as.map (colOf (vs ++ [v]))) := by
  have e : (kw :: id :: (p.toks ++ valueToks as v)).drop 5 = as.map (fun a => Num.fmt (Num.castF (a.val v))) ++ [] := by
    simp [Pt.toks, valueToks]
  rw [e, readProperties_ones as (fun a => Num.castF (a.val v)) (colOf vs) []]
  simp [colOf]

/-! ## TSurf -/

/-- One vertex line. -/
theorem readTfacesLoop_vrtx [LawfulNum D] {kw : Str} (hk : IsVrtxKw kw) (as : List (Attr D)) (ts : TSurf D)
    (hz : ts.crs.zPos = true) (he : ts.props.esizes = as.map fun _ => 1) {vs : List Nat}
    (ha : ts.attrs = as.map (colOf vs)) {id : Nat} (hid : id < W) (v : Nat) (p : Pt D) (rest : File) :
    readTfacesLoop ts (vrtxLine kw as id v p :: rest) =
      readTfacesLoop { ts with
        offset := if ts.points.isEmpty then id else ts.offset,
        points := ts.points ++ [p.round],
        attrs := as.map (colOf (vs ++ [v])) } rest := by
  rw [readTfacesLoop, split_vrtxLine hk.tok]
  simp only [hk.ne_end, if_false]
  rw [tsLine, if_pos (show kw = cs!"VRTX" ∨ kw = cs!"PVRTX" from hk)]
  unfold tsVrtx
  rw [hz, readPoint_toks, he, ha, readProperties_line]
  by_cases hp : ts.points.isEmpty = true
  · simp [hp, readIndex_showNat hid]
  · simp [hp]

/-- Vertex lines numbered from `base`: vertex `v` has number `base + v`. -/
def vrtxLinesFrom (base : Nat) (kw : Str) (attrs : List (Attr D)) : Nat → List (Pt D) → List Str
  | _, [] => []
  | v, p :: ps => vrtxLine kw attrs (base + v) v p :: vrtxLinesFrom base kw attrs (v + 1) ps

theorem vrtxLines_eq (kw : Str) (attrs : List (Attr D)) (v : Nat) (ps : List (Pt D)) :
    vrtxLines kw attrs v ps = vrtxLinesFrom 0 kw attrs v ps := by
  induction ps generalizing v with
  | nil => rfl
  | cons p ps ih => simp [vrtxLines, vrtxLinesFrom, ih]

/-- All vertex lines. -/
theorem readTfacesLoop_vrtxs [LawfulNum D] {kw : Str} (hk : IsVrtxKw kw) (as : List (Attr D)) (base : Nat)
    (pts : List (Pt D)) (v : Nat)
    (ts : TSurf D) (hz : ts.crs.zPos = true) (he : ts.props.esizes = as.map fun _ => 1)
    (ha : ts.attrs = as.map (colOf (List.range v))) (hl : ts.points.length = v) (ho : v = 0 ∨ ts.offset = base)
    (hW : base + v + pts.length ≤ W) (rest : File) :
    readTfacesLoop ts (vrtxLinesFrom base kw as v pts ++ rest) =
      readTfacesLoop { ts with
        offset := if pts.isEmpty then ts.offset else base,
        points := ts.points ++ pts.map Pt.round,
        attrs := as.map (colOf (List.range (v + pts.length))) } rest := by
  induction pts generalizing v ts with
  | nil =>
    simp only [vrtxLinesFrom, List.nil_append, List.map_nil, List.append_nil, List.isEmpty_nil, if_true, List.length_nil,
      Nat.add_zero, ← ha]
  | cons p ps ih =>
    simp only [List.length_cons] at hW
    rw [vrtxLinesFrom, List.cons_append, readTfacesLoop_vrtx hk as ts hz he ha (by omega) v p]
    have hoff : (if ts.points.isEmpty = true then base + v else ts.offset) = base := by
      rcases Nat.eq_zero_or_pos v with h0 | h0
      · have : ts.points = [] := List.length_eq_zero_iff.1 (by omega)
        simp [this, h0]
      · have h1 : ts.points.isEmpty = false := by
          cases h : ts.points with
          | nil => rw [h] at hl; simp at hl; omega
          | cons => rfl
        have : ts.offset = base := by omega
        simp [h1, this]
    rw [hoff, ih (v + 1)]
    · congr 1
      have : v + 1 + ps.length = v + (p :: ps).length := by simp; omega
      simp only [this, List.map_cons, List.isEmpty_cons, Bool.false_eq_true, if_false]
      congr 1
      · simp
      · simp
    · exact hz
    · exact he
    · simp [List.range_succ]
    · simp [hl]
    · right; rfl
    · omega

theorem readTfacesLoop_trgl (ts : TSurf D) (t : Tri) (h : t.1 < W ∧ t.2.1 < W ∧ t.2.2 < W) (rest : File) :
    readTfacesLoop ts (trglLine t :: rest) =
      readTfacesLoop { ts with triangles := ts.triangles ++
        [(sub32 t.1 ts.offset, sub32 t.2.1 ts.offset, sub32 t.2.2 ts.offset)] } rest := by
  have e : split (trglLine t) = cs!"TRGL" :: [showNat t.1, showNat t.2.1, showNat t.2.2] := by
    unfold trglLine
    apply split_kw_spaced (by decide)
    intro x hx
    simp only [List.mem_cons, List.not_mem_nil, or_false] at hx
    rcases hx with rfl | rfl | rfl <;> exact isTok_showNat _
  rw [readTfacesLoop, e]
  simp [tsLine, tsTrgl, readIndex_showNat h.1, readIndex_showNat h.2.1, readIndex_showNat h.2.2]

theorem readTfacesLoop_trgls (tris : List Tri) (ts : TSurf D) (h : ∀ t ∈ tris, t.1 < W ∧ t.2.1 < W ∧ t.2.2 < W)
    (rest : File) :
    readTfacesLoop ts (tris.map trglLine ++ rest) =
      readTfacesLoop { ts with triangles :=
        ts.triangles ++ tris.map (fun t => (sub32 t.1 ts.offset, sub32 t.2.1 ts.offset, sub32 t.2.2 ts.offset)) } rest := by
  induction tris generalizing ts with
  | nil => simp
  | cons t tr ih =>
    rw [List.map_cons, List.cons_append, readTfacesLoop_trgl _ _ (h t (by simp)), ih _ (fun x hx => h x (by simp [hx]))]
    simp

/-- A surface that can be saved: file-safe names, triangles on existing vertices, sizes that fit in 32 bits. -/
structure GoodSurf (m : Mesh Tri D) : Prop where
  name : ∀ n, m.name = some n → GoodObjectName n
  names : GoodNames ((written m.attrs).map Attr.name)
  tris : ∀ t ∈ m.cells, t.1 < m.points.length ∧ t.2.1 < m.points.length ∧ t.2.2 < m.points.length
  size : m.points.length < W

/-- What is read from a surface written with numbers starting at `base`. -/
def tsurfOf (base : Nat) (m : Mesh Tri D) : TSurf D where
  offset := if m.points.isEmpty then 1 else base
  name := m.name
  crs := {}
  props := readBackProps ((written m.attrs).map Attr.name)
  points := m.points.map Pt.round
  triangles := m.cells
  tfaceTriangles := [0, m.cells.length]
  tfaceVertices := [0, m.points.length]
  attrs := (written m.attrs).map (colOf (List.range m.points.length))

/-- A triangle written with numbers starting at `base`. -/
def baseTri (base : Nat) (t : Tri) : Tri := (base + t.1, base + t.2.1, base + t.2.2)

/-- The text of a surface whose vertices are numbered from `base`; `saveTS` is the case `base = 0`. -/
def textTS (base : Nat) (m : Mesh Tri D) : File :=
  [cs!"GOCAD TSurf 1"] ++ writeHeader m.name ++ writeCrs {}
    ++ writeProps D ((written m.attrs).map Attr.name)
    ++ [cs!"TFACE"]
    ++ vrtxLinesFrom base (vrtxKeyword m.attrs) (written m.attrs) 0 m.points
    ++ (m.cells.map (baseTri base)).map trglLine
    ++ [cs!"END"]

theorem saveTS_eq (m : Mesh Tri D) : saveTS m = textTS 0 m := by
  have : m.cells.map (baseTri 0) = m.cells := by
    conv => rhs; rw [← List.map_id m.cells]
    apply List.map_congr_left
    intro t _; simp [baseTri]
  simp only [saveTS, textTS, vrtxLines_eq, this]

theorem readTSurf_textTS [LawfulNum D] {base : Nat} {m : Mesh Tri D} (g : GoodSurf m) (hb : base + m.points.length ≤ W)
    (rest : File) :
    readTSurf (textTS base m ++ rest) = .ok (some (tsurfOf base m, rest)) := by
  have e : textTS base m ++ rest = cs!"GOCAD TSurf 1" :: (writeHeader m.name ++ (writeCrs {} ++
      (writeProps D ((written m.attrs).map Attr.name) ++ (cs!"TFACE" ::
      (vrtxLinesFrom base (vrtxKeyword m.attrs) (written m.attrs) 0 m.points ++
        ((m.cells.map (baseTri base)).map trglLine ++ (cs!"END" :: rest))))))) := by
    simp [textTS]
  rw [e]
  unfold readTSurf
  rw [gotoKeyword?, if_pos (by rfl)]
  simp only
  rw [readHeader_good g.name, Res.ok_bind]
  simp only
  rw [readCrs_default, Res.ok_bind]
  simp only
  rw [readPropHeader_writeProps g.names, Res.ok_bind]
  simp only
  unfold readTfaces
  rw [gotoKeyword_skip (fun l hl => classLines_tface hl), gotoKeyword_here (by rfl), Res.ok_bind]
  simp only
  rw [readTfacesLoop_vrtxs (isVrtxKw_vrtxKeyword m.attrs) (written m.attrs) base m.points 0 _ rfl]
  · rw [readTfacesLoop_trgls]
    · have hend : ∀ ts : TSurf D, readTfacesLoop ts (cs!"END" :: rest) = .ok (tsClose ts, rest) := fun _ => rfl
      rw [hend, Res.ok_bind]
      simp only [tsClose, tsurfOf, Res.pure_eq, List.nil_append, Nat.zero_add, List.map_map]
      have ht : (m.cells.map ((fun t : Tri => (sub32 t.1 (if m.points.isEmpty = true then 1 else base),
          sub32 t.2.1 (if m.points.isEmpty = true then 1 else base),
          sub32 t.2.2 (if m.points.isEmpty = true then 1 else base))) ∘ baseTri base)) = m.cells := by
        conv => rhs; rw [← List.map_id m.cells]
        apply List.map_congr_left
        intro t ht
        have := g.tris t ht
        have he : m.points.isEmpty = false := by
          cases hp : m.points with
          | nil => rw [hp] at this; simp at this
          | cons => rfl
        simp only [Function.comp, baseTri, he, Bool.false_eq_true, if_false]
        rw [sub32_of_le (by omega) (by omega), sub32_of_le (by omega) (by omega), sub32_of_le (by omega) (by omega)]
        simp
      rw [ht]
      simp
    · intro t ht
      obtain ⟨t, ht', rfl⟩ := List.mem_map.1 ht
      have := g.tris t ht'
      simp only [baseTri]
      omega
  · simp [readBackProps_esizes]
  · simp [readBackProps_names, colOf]
  · rfl
  · left; rfl
  · omega

end Verif.GocadMesh
