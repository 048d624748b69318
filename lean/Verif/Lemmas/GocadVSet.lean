import Verif.Lemmas.GocadBuild

/-! # Lemmas on `.vs` files -/

set_option linter.unusedSectionVars false

namespace Verif.GocadMesh

open Verif Verif.Gocad

variable {D : Type} [Num D]

theorem readVSetLoop_vrtx [LawfulNum D] {kw : Str} (hk : IsVrtxKw kw) (as : List (Attr D)) (s : VSet D)
    (hz : s.crs.zPos = true) (he : s.props.esizes = as.map fun _ => 1) {vs : List Nat}
    (ha : s.attrs = as.map (colOf vs)) {id : Nat} (hid : id < W) (v : Nat) (p : Pt D) (rest : File) :
    readVSetLoop s (vrtxLine kw as id v p :: rest) =
      readVSetLoop { s with
        offset := if s.points.isEmpty then id else s.offset,
        points := s.points ++ [p.round],
        attrs := as.map (colOf (vs ++ [v])) } rest := by
  rw [readVSetLoop, split_vrtxLine hk.tok]
  simp only [hk.ne_end, if_false]
  have hn : ¬ (kw ≠ cs!"VRTX" ∧ kw ≠ cs!"PVRTX") := by
    rintro ⟨h1, h2⟩; rcases hk with h | h
    · exact h1 h
    · exact h2 h
  rw [vsLine, if_neg hn]
  unfold vsVrtx
  rw [hz, readPoint_toks, he, ha, readProperties_line]
  by_cases hp : s.points.isEmpty = true
  · simp [hp, readIndex_showNat hid]
  · simp [hp]

theorem readVSetLoop_vrtxs [LawfulNum D] {kw : Str} (hk : IsVrtxKw kw) (as : List (Attr D)) (base : Nat)
    (pts : List (Pt D)) (v : Nat)
    (s : VSet D) (hz : s.crs.zPos = true) (he : s.props.esizes = as.map fun _ => 1)
    (ha : s.attrs = as.map (colOf (List.range v))) (hl : s.points.length = v) (ho : v = 0 ∨ s.offset = base)
    (hW : base + v + pts.length ≤ W) (rest : File) :
    readVSetLoop s (vrtxLinesFrom base kw as v pts ++ rest) =
      readVSetLoop { s with
        offset := if pts.isEmpty then s.offset else base,
        points := s.points ++ pts.map Pt.round,
        attrs := as.map (colOf (List.range (v + pts.length))) } rest := by
  induction pts generalizing v s with
  | nil =>
    simp only [vrtxLinesFrom, List.nil_append, List.map_nil, List.append_nil, List.isEmpty_nil, if_true, List.length_nil,
      Nat.add_zero, ← ha]
  | cons p ps ih =>
    simp only [List.length_cons] at hW
    rw [vrtxLinesFrom, List.cons_append, readVSetLoop_vrtx hk as s hz he ha (by omega) v p]
    have hoff : (if s.points.isEmpty = true then base + v else s.offset) = base := by
      rcases Nat.eq_zero_or_pos v with h0 | h0
      · have : s.points = [] := List.length_eq_zero_iff.1 (by omega)
        simp [this, h0]
      · have h1 : s.points.isEmpty = false := by
          cases h : s.points with
          | nil => rw [h] at hl; simp at hl; omega
          | cons => rfl
        have : s.offset = base := by omega
        simp [h1, this]
    rw [hoff, ih (v + 1)]
    · congr 1
      have : v + 1 + ps.length = v + (p :: ps).length := by simp; omega
      simp only [this, List.map_cons, List.isEmpty_cons, Bool.false_eq_true, if_false]
      congr 1
      · simp
      · simp
    · exact hz
    · exact he
    · simp [List.range_succ]
    · simp [hl]
    · right; rfl
    · omega

/-- A point set that can be saved: file-safe names, size that fits in 32 bits. -/
structure GoodVSet (m : Mesh Empty D) : Prop where
  name : ∀ n, m.name = some n → GoodObjectName n
  names : GoodNames ((written m.attrs).map Attr.name)
  size : m.points.length < W

/-- What is read from a point set written with numbers starting at `base`. -/
def vsetOf (base : Nat) (m : Mesh Empty D) : VSet D where
  offset := if m.points.isEmpty then 1 else base
  name := m.name
  crs := {}
  props := readBackProps ((written m.attrs).map Attr.name)
  points := m.points.map Pt.round
  attrs := (written m.attrs).map (colOf (List.range m.points.length))

/-- The text of a point set whose vertices are numbered from `base`; `saveVS` is the case `base = 0`. -/
def textVS (base : Nat) (m : Mesh Empty D) : File :=
  [cs!"GOCAD VSet 1"] ++ writeHeader m.name ++ writeCrs {}
    ++ writeProps D ((written m.attrs).map Attr.name)
    ++ vrtxLinesFrom base (vrtxKeyword m.attrs) (written m.attrs) 0 m.points
    ++ [cs!"END"]

theorem saveVS_eq (m : Mesh Empty D) : saveVS m = textVS 0 m := by
  simp only [saveVS, textVS, vrtxLines_eq]

theorem gotoKeywords_vrtx {kw : Str} (hk : IsVrtxKw kw) (as : List (Attr D)) (id v : Nat) (p : Pt D) (rest : File) :
    gotoKeywords [cs!"VRTX", cs!"PVRTX"] (vrtxLine kw as id v p :: rest) = .ok (vrtxLine kw as id v p, rest) := by
  rw [gotoKeywords, if_pos]
  rcases hk with rfl | rfl
  · rfl
  · rfl

theorem readVSet_head [LawfulNum D] {base : Nat} {m : Mesh Empty D} (g : GoodVSet m) (rest : File) :
    readVSet (textVS base m ++ rest) =
      (readVSetVertices (D := D) ⟨1, m.name, {}, readBackProps ((written m.attrs).map Attr.name), [],
          (readBackProps ((written m.attrs).map Attr.name) : PropHeader D).names.map (fun _ => [])⟩
        (classLines ((written m.attrs).map Attr.name) ++
          (vrtxLinesFrom base (vrtxKeyword m.attrs) (written m.attrs) 0 m.points ++ (cs!"END" :: rest)))
        >>= fun r => .ok (some r)) := by
  have e : textVS base m ++ rest = cs!"GOCAD VSet 1" :: (writeHeader m.name ++ (writeCrs {} ++
      (writeProps D ((written m.attrs).map Attr.name) ++
      (vrtxLinesFrom base (vrtxKeyword m.attrs) (written m.attrs) 0 m.points ++ (cs!"END" :: rest))))) := by
    simp [textVS]
  rw [e]
  unfold readVSet
  rw [gotoKeyword?, if_pos (by rfl)]
  simp only
  rw [readHeader_good g.name, Res.ok_bind]
  simp only
  rw [readCrs_default, Res.ok_bind]
  simp only
  rw [readPropHeader_writeProps g.names, Res.ok_bind]
  rfl

theorem readVSet_textVS [LawfulNum D] {base : Nat} {m : Mesh Empty D} (g : GoodVSet m) (hne : m.points ≠ [])
    (hb : base + m.points.length ≤ W) (rest : File) :
    readVSet (textVS base m ++ rest) = .ok (some (vsetOf base m, rest)) := by
  rw [readVSet_head g]
  unfold readVSetVertices
  rw [gotoKeywords_skip (fun l hl => classLines_vrtx hl)]
  cases hp : m.points with
  | nil => exact absurd hp hne
  | cons p ps =>
    rw [vrtxLinesFrom, List.cons_append, gotoKeywords_vrtx (isVrtxKw_vrtxKeyword _), Res.ok_bind]
    dsimp only
    have h := readVSetLoop_vrtxs (isVrtxKw_vrtxKeyword m.attrs) (written m.attrs) base m.points 0
      ⟨1, m.name, {}, readBackProps ((written m.attrs).map Attr.name), [],
          (readBackProps ((written m.attrs).map Attr.name) : PropHeader D).names.map (fun _ => [])⟩ rfl
      (by simp [readBackProps_esizes]) (by simp [readBackProps_names, colOf]) rfl (Or.inl rfl) (by omega) (cs!"END" :: rest)
    rw [hp, vrtxLinesFrom, List.cons_append] at h
    rw [h]
    have hend : ∀ ts : VSet D, readVSetLoop ts (cs!"END" :: rest) = .ok (ts, rest) := fun _ => rfl
    rw [hend, Res.ok_bind]
    simp [vsetOf, hp]

theorem buildPointSet_any {m : Loaded Empty D} {s : Mesh Empty D} {base : Nat} (hs : StoreOk m.points.length m.store) :
    ∃ st, buildPointSet m (vsetOf base s) = .ok ⟨s.name <|> m.name, m.points ++ s.points.map Pt.round, [], st⟩ ∧
      StoreOk (m.points.length + s.points.length) st := by
  obtain ⟨st, h1, h2⟩ := createAttributes_written (as := written s.attrs) (n := s.points.length)
    (nb := (m.points ++ s.points.map Pt.round).length) (st := growStore (m.points ++ s.points.map Pt.round).length m.store)
    (by simp) (growStore_ok (by simp) hs)
  refine ⟨st, ?_, by simpa using h2⟩
  unfold buildPointSet
  simp only [vsetOf, List.length_map]
  rw [h1, Res.ok_bind]
  simp

theorem buildPointSet_first {s : Mesh Empty D} {base : Nat} (hd : ((written s.attrs).map Attr.name).Nodup) :
    buildPointSet {} (vsetOf base s) = .ok ⟨s.name, s.points.map Pt.round, [],
      (written s.attrs).map fun a => (a.name, loadedCol s.points.length a)⟩ := by
  unfold buildPointSet
  simp only [vsetOf, List.length_map, List.nil_append, growStore, List.map_nil]
  rw [createAttributes_written_fresh hd, Res.ok_bind]
  cases s.name <;> simp

theorem loadVSLoop_text [LawfulNum D] {n base : Nat} {m : Loaded Empty D} {s : Mesh Empty D} (g : GoodVSet s)
    (hne : s.points ≠ []) (hb : base + s.points.length ≤ W) (rest : File) :
    loadVSLoop (n + 1) m (textVS base s ++ rest) = (buildPointSet m (vsetOf base s) >>= fun m' => loadVSLoop n m' rest) := by
  rw [loadVSLoop, readVSet_textVS g hne hb, Res.ok_bind]

theorem loadVSLoop_nil {n : Nat} (m : Loaded Empty D) : loadVSLoop (n + 1) m [] = .ok m := rfl

theorem length_textVS_pos (base : Nat) (s : Mesh Empty D) : 0 < (textVS base s).length := by
  simp [textVS]

theorem vsLine_ne_diverge (s : VSet D) (kw : Str) (toks : List Str) : vsLine s kw toks ≠ .diverge := by
  unfold vsLine
  split
  · simp
  · unfold vsVrtx
    exact bind_ne_diverge (firstId_ne_diverge _ _ _) fun _ => bind_ne_diverge (readPoint_ne_diverge _ _) fun _ =>
      bind_ne_diverge (readProperties_ne_diverge _ _ _) fun _ => by simp

theorem readVSetLoop_fwd (s : VSet D) (f : File) : Fwd f (readVSetLoop s f) := by
  induction f generalizing s with
  | nil => exact Fwd.throw
  | cons l ls ih =>
    rw [readVSetLoop]
    split
    · exact Fwd.ub
    · split
      · exact Fwd.ok _ (by simp)
      · exact Fwd.bind_pure (vsLine_ne_diverge _ _ _) fun t => (ih t).mono (by simp)

theorem readVSetVertices_fwd (s : VSet D) (f : File) : Fwd f (readVSetVertices s f) := by
  unfold readVSetVertices
  cases h : gotoKeywords [cs!"VRTX", cs!"PVRTX"] f with
  | ok p => obtain ⟨l, g⟩ := p; rw [Res.ok_bind]; exact (readVSetLoop_fwd _ _).mono (gotoKeywords_fwd _ _ h)
  | throw => exact Fwd.throw
  | ub => exact Fwd.ub
  | diverge => exact absurd h (gotoKeywords_ne_diverge _ _)

theorem readVSet_fwd (f : File) : FwdObj f (readVSet f : Res (Option (VSet D × File))) := by
  unfold readVSet
  split
  · exact ⟨by simp, by simp⟩
  · next l g e =>
    have hl := gotoKeyword?_length e
    have : Fwd g (do
        let (name, f) ← readHeader g
        let (crs, f) ← readCrs f
        let (props, f) ← (readPropHeader [] f : Res (PropHeader D × File))
        readVSetVertices { name, crs, props, attrs := props.names.map (fun _ => []) } f) :=
      (readHeader_fwd g).bind fun _ _ _ => (readCrs_fwd _).bind fun _ _ _ => (readPropHeader_fwd _ _).bind fun _ _ _ =>
        readVSetVertices_fwd _ _
    have h2 := FwdObj.of_fwd this hl
    simpa only [Res.bind_assoc'] using h2

theorem loadVSLoop_terminates (n : Nat) (m : Loaded Empty D) (f : File) (h : f.length < n) : loadVSLoop n m f ≠ .diverge := by
  induction n generalizing m f with
  | zero => omega
  | succ n ih =>
    rw [loadVSLoop]
    have hf := readVSet_fwd (D := D) f
    refine bind_ne_diverge' hf.1 ?_
    intro o ho
    match o with
    | none => simp
    | some (ts, f') =>
      have := hf.2 ts f' ho
      refine bind_ne_diverge ?_ fun m' => ih m' f' (by omega)
      unfold buildPointSet
      exact bind_ne_diverge (createAttributes_ne_diverge _ _ _ _ _ _ _) fun _ => by simp

end Verif.GocadMesh
