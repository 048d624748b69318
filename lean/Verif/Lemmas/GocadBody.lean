import Verif.Lemmas.GocadVSet

/-!
# Bodies of GOCAD objects as lists of records

A TSurf body is a list of records (vertex, atom, triangle, border stone, border, face separator) whose vertex references are given
relative to the first vertex.  `render base` writes them with numbers starting at `base`.  `meaning` is what the records say, without
any reference to the text or to the numbering base.
-/

set_option linter.unusedSectionVars false

namespace Verif.GocadBody

open Verif Verif.Gocad Verif.GocadMesh

variable {D : Type} [Num D]

/-- A record of a TSurf body. -/
inductive Rec (D : Type) where
  | vrtx (p : Pt D) (vals : List D)
  | atom (k : Nat) (vals : List D)
  | trgl (a b c : Nat)
  | bstone (a : Nat)
  | border (id a b : Nat)
  | tface

/-- Vertex numbers used by a record. -/
def Rec.refs : Rec D → List Nat
  | .vrtx _ _ => []
  | .atom k _ => [k]
  | .trgl a b c => [a, b, c]
  | .bstone a => [a]
  | .border _ a b => [a, b]
  | .tface => []

/-- Does the record define a vertex? -/
def Rec.defines : Rec D → Bool
  | .vrtx _ _ => true
  | .atom _ _ => true
  | _ => false

/-- Text of a record when the next vertex is number `base + n`. -/
def Rec.line (base n : Nat) : Rec D → Str
  | .vrtx p vals => cs!"PVRTX" ++ spaced (showNat (base + n) :: (p.toks ++ vals.map Num.fmt))
  | .atom k vals => cs!"PATOM" ++ spaced (showNat (base + n) :: showNat (base + k) :: vals.map Num.fmt)
  | .trgl a b c => cs!"TRGL" ++ spaced [showNat (base + a), showNat (base + b), showNat (base + c)]
  | .bstone a => cs!"BSTONE" ++ spaced [showNat (base + a)]
  | .border id a b => cs!"BORDER" ++ spaced [showNat id, showNat (base + a), showNat (base + b)]
  | .tface => cs!"TFACE"

/-- Text of a body. -/
def render (base : Nat) : Nat → List (Rec D) → File
  | _, [] => []
  | n, r :: rs => r.line base n :: render base (if r.defines then n + 1 else n) rs

/-- The point of a vertex record under the given depth convention. -/
def pointOf (z : Bool) (p : Pt D) : Pt D :=
  ⟨Num.round p.x, Num.round p.y, if z then Num.round p.z else Num.neg (Num.round p.z)⟩

/-- What a record says. -/
def Rec.step (ts : TSurf D) : Rec D → Res (TSurf D)
  | .vrtx p vals => do
    let attrs ← readProperties ts.props.esizes ts.attrs (vals.map Num.fmt)
    pure { ts with points := ts.points ++ [pointOf ts.crs.zPos p], attrs }
  | .atom k vals => do
    let p ← Res.at_ ts.points k
    let attrs ← readProperties ts.props.esizes ts.attrs (vals.map Num.fmt)
    pure { ts with points := ts.points ++ [p], attrs }
  | .trgl a b c => pure { ts with triangles := ts.triangles ++ [(a, b, c)] }
  | .bstone a => pure { ts with bstones := ts.bstones ++ [a] }
  | .border _ a b => pure { ts with borders := ts.borders ++ [(a, b)] }
  | .tface => pure (tsClose ts)

/-- What a list of records says, starting from a state. -/
def meaning (ts : TSurf D) (rs : List (Rec D)) : Res (TSurf D) := Res.foldM' Rec.step ts rs

/-- All numbers fit in 32 bits. -/
def Fits (base n : Nat) (rs : List (Rec D)) : Prop :=
  base + n + rs.length ≤ W ∧ ∀ r ∈ rs, (∀ a ∈ r.refs, base + a < W) ∧ (∀ id a b, r = .border id a b → id < W)

/-- Same state with another offset. -/
def setOff (b : Nat) (ts : TSurf D) : TSurf D := { ts with offset := b }

theorem pointOf_toks [LawfulNum D] (z : Bool) (kw id : Str) (p : Pt D) (vals : List Str) :
    readPoint z (kw :: id :: (p.toks ++ vals)) = .ok (pointOf z p) := by
  simp [readPoint, Pt.toks, pointOf]

theorem isTok_fmt_map [LawfulNum D] (vals : List D) : ∀ t ∈ vals.map Num.fmt, IsTok t := by
  intro t ht
  obtain ⟨d, _, rfl⟩ := List.mem_map.1 ht
  exact LawfulNum.fmt_tok _

theorem sub32_base {b a : Nat} (h : b + a < W) : sub32 (b + a) b = a := by
  rw [sub32_of_le (by omega) h]; omega

theorem step_length {ts ts' : TSurf D} {r : Rec D} (h : r.step ts = .ok ts') :
    ts'.points.length = if r.defines then ts.points.length + 1 else ts.points.length := by
  cases r with
  | vrtx p vals =>
    simp only [Rec.step, Res.bind_eq_ok, Res.pure_eq, Res.ok.injEq] at h
    obtain ⟨a, _, rfl⟩ := h
    simp [Rec.defines]
  | atom k vals =>
    simp only [Rec.step, Res.bind_eq_ok, Res.pure_eq, Res.ok.injEq] at h
    obtain ⟨p, _, a, _, rfl⟩ := h
    simp [Rec.defines]
  | trgl a b c => simp only [Rec.step, Res.pure_eq, Res.ok.injEq] at h; subst h; simp [Rec.defines]
  | bstone a => simp only [Rec.step, Res.pure_eq, Res.ok.injEq] at h; subst h; simp [Rec.defines]
  | border id a b => simp only [Rec.step, Res.pure_eq, Res.ok.injEq] at h; subst h; simp [Rec.defines]
  | tface => simp only [Rec.step, Res.pure_eq, Res.ok.injEq] at h; subst h; simp [Rec.defines, tsClose]

/-- Reading one rendered record, once the base is known. -/
theorem read_line [LawfulNum D] {base n : Nat} {r : Rec D} {ts : TSurf D}
    (hne : ts.points ≠ []) (hr : ∀ a ∈ r.refs, base + a < W) (rest : File) :
    readTfacesLoop (setOff base ts) (r.line base n :: rest) =
      (r.step ts >>= fun ts' => readTfacesLoop (setOff base ts') rest) := by
  have hemp : ts.points.isEmpty = false := by cases h : ts.points <;> simp_all
  cases r with
  | vrtx p vals =>
    have hs : split (Rec.line base n (.vrtx p vals)) = cs!"PVRTX" :: showNat (base + n) :: (p.toks ++ vals.map Num.fmt) := by
      apply split_kw_spaced (by decide)
      intro t ht
      rcases List.mem_cons.1 ht with rfl | ht
      · exact isTok_showNat _
      rcases List.mem_append.1 ht with ht | ht
      · exact isTok_toks p t ht
      · exact isTok_fmt_map vals t ht
    rw [readTfacesLoop, hs]
    simp only
    rw [if_neg (by decide), tsLine, if_pos (Or.inr rfl)]
    unfold tsVrtx
    rw [pointOf_toks]
    have hd : (cs!"PVRTX" :: showNat (base + n) :: (p.toks ++ vals.map Num.fmt)).drop 5 = vals.map Num.fmt := by
      simp [Pt.toks]
    rw [hd]
    simp only [setOff, hemp, Bool.false_eq_true, if_false, Res.pure_eq, Res.ok_bind, Rec.step, Res.bind_assoc']
  | atom k vals =>
    have hs : split (Rec.line base n (.atom k vals)) =
        cs!"PATOM" :: showNat (base + n) :: showNat (base + k) :: vals.map Num.fmt := by
      apply split_kw_spaced (by decide)
      intro t ht
      rcases List.mem_cons.1 ht with rfl | ht
      · exact isTok_showNat _
      rcases List.mem_cons.1 ht with rfl | ht
      · exact isTok_showNat _
      · exact isTok_fmt_map vals t ht
    have hk := hr k (by simp [Rec.refs])
    rw [readTfacesLoop, hs]
    simp only
    rw [if_neg (by decide), tsLine, if_neg (by decide), if_pos (Or.inr rfl)]
    unfold tsAtom
    simp only [Res.index_cons_succ, Res.index_cons_zero, Res.ok_bind, readIndex_showNat hk, setOff, sub32_base hk,
      List.drop_succ_cons, List.drop_zero, Rec.step, Res.bind_assoc', Res.pure_eq]
  | trgl a b c =>
    have hs : split (Rec.line base n (.trgl a b c : Rec D)) =
        [cs!"TRGL", showNat (base + a), showNat (base + b), showNat (base + c)] :=
      split_kw_spaced (by decide) (by intro t ht; simp at ht; rcases ht with rfl | rfl | rfl <;> exact isTok_showNat _)
    have ha := hr a (by simp [Rec.refs])
    have hb := hr b (by simp [Rec.refs])
    have hc := hr c (by simp [Rec.refs])
    rw [readTfacesLoop, hs]
    simp only
    rw [if_neg (by decide), tsLine, if_neg (by decide), if_neg (by decide), if_pos rfl]
    simp only [tsTrgl, Res.index_cons_succ, Res.index_cons_zero, Res.ok_bind, readIndex_showNat ha, readIndex_showNat hb,
      readIndex_showNat hc, setOff, sub32_base ha, sub32_base hb, sub32_base hc, Rec.step, Res.pure_eq]
  | bstone a =>
    have hs : split (Rec.line base n (.bstone a : Rec D)) = [cs!"BSTONE", showNat (base + a)] :=
      split_kw_spaced (by decide) (by intro t ht; simp at ht; subst ht; exact isTok_showNat _)
    have ha := hr a (by simp [Rec.refs])
    rw [readTfacesLoop, hs]
    simp only
    rw [if_neg (by decide), tsLine, if_neg (by decide), if_neg (by decide), if_neg (by decide), if_pos rfl]
    simp only [tsBstone, Res.index_cons_succ, Res.index_cons_zero, Res.ok_bind, readIndex_showNat ha, setOff, sub32_base ha,
      Rec.step, Res.pure_eq]
  | border id a b =>
    have hs : split (Rec.line base n (.border id a b : Rec D)) =
        [cs!"BORDER", showNat id, showNat (base + a), showNat (base + b)] :=
      split_kw_spaced (by decide) (by intro t ht; simp at ht; rcases ht with rfl | rfl | rfl <;> exact isTok_showNat _)
    have ha := hr a (by simp [Rec.refs])
    have hb := hr b (by simp [Rec.refs])
    rw [readTfacesLoop, hs]
    simp only
    rw [if_neg (by decide), tsLine, if_neg (by decide), if_neg (by decide), if_neg (by decide), if_neg (by decide), if_pos rfl]
    simp only [tsBorder, Res.index_cons_succ, Res.index_cons_zero, Res.ok_bind, readIndex_showNat ha, readIndex_showNat hb, setOff,
      sub32_base ha, sub32_base hb, Rec.step, Res.pure_eq]
  | tface => rfl

/-- Reading a rendered body, once the base is known. -/
theorem read_render [LawfulNum D] {base : Nat} (rs : List (Rec D)) {n : Nat} {ts : TSurf D} (hn : ts.points.length = n)
    (hne : ts.points ≠ []) (hf : Fits base n rs) (rest : File) :
    readTfacesLoop (setOff base ts) (render base n rs ++ cs!"END" :: rest) =
      (meaning ts rs >>= fun ts' => .ok (tsClose (setOff base ts'), rest)) := by
  induction rs generalizing n ts with
  | nil => rfl
  | cons r rs ih =>
    have hlen : base + n + (rs.length + 1) ≤ W := hf.1
    rw [render, List.cons_append, read_line hne (hf.2 r (by simp)).1]
    simp only [meaning, Res.foldM'_cons, Res.bind_assoc']
    cases hs : r.step ts with
    | ok ts' =>
      simp only [Res.ok_bind]
      have hl := step_length hs
      rw [hn] at hl
      have hpos : 0 < ts'.points.length := by
        have : 0 < n := by rw [← hn]; exact List.length_pos_iff.2 hne
        rw [hl]; split <;> omega
      refine ih hl (List.ne_nil_of_length_pos hpos) ⟨?_, fun x hx => hf.2 x (by simp [hx])⟩
      split <;> omega
    | throw => rfl
    | ub => rfl
    | diverge => rfl

/-- Reading a rendered body whose first record is a vertex: the reader learns the base from it. -/
theorem read_body [LawfulNum D] {base : Nat} (p : Pt D) (vals : List D) (rs : List (Rec D)) {ts : TSurf D}
    (he : ts.points = []) (hf : Fits base 0 (.vrtx p vals :: rs)) (rest : File) :
    readTfacesLoop ts (render base 0 (.vrtx p vals :: rs) ++ cs!"END" :: rest) =
      (meaning ts (.vrtx p vals :: rs) >>= fun ts' => .ok (tsClose (setOff base ts'), rest)) := by
  have hlen : base + 0 + (rs.length + 1) ≤ W := hf.1
  have hs : split (Rec.line base 0 (.vrtx p vals)) = cs!"PVRTX" :: showNat (base + 0) :: (p.toks ++ vals.map Num.fmt) := by
    apply split_kw_spaced (by decide)
    intro t ht
    rcases List.mem_cons.1 ht with rfl | ht
    · exact isTok_showNat _
    rcases List.mem_append.1 ht with ht | ht
    · exact isTok_toks p t ht
    · exact isTok_fmt_map vals t ht
  have hd : (cs!"PVRTX" :: showNat (base + 0) :: (p.toks ++ vals.map Num.fmt)).drop 5 = vals.map Num.fmt := by
    simp [Pt.toks]
  rw [render, List.cons_append, readTfacesLoop, hs]
  simp only
  rw [if_neg (by decide), tsLine, if_pos (Or.inr rfl)]
  unfold tsVrtx
  rw [pointOf_toks, hd]
  simp only [he, List.isEmpty_nil, if_true, Res.index_cons_succ, Res.index_cons_zero, Res.ok_bind,
    readIndex_showNat (show base + 0 < W by omega), meaning, Res.foldM'_cons, Rec.step, Res.bind_assoc', Res.pure_eq]
  cases hp : readProperties ts.props.esizes ts.attrs (vals.map Num.fmt) with
  | ok attrs =>
    simp only [Res.ok_bind]
    have := read_render (base := base) rs (n := 1)
      (ts := { ts with points := [] ++ [pointOf ts.crs.zPos p], attrs := attrs }) (by simp) (by simp)
      ⟨by omega, fun x hx => hf.2 x (by simp [hx])⟩ rest
    simpa [setOff, Rec.defines, meaning] using this
  | throw => rfl
  | ub => rfl
  | diverge => rfl

/-! ## PLine bodies -/

/-- A record of a PLine body. -/
inductive ERec (D : Type) where
  | vrtx (p : Pt D)
  | pvrtx (p : Pt D) (vals : List D)
  | seg (a b : Nat)
  | iline

/-- Does the record define a vertex? -/
def ERec.defines : ERec D → Bool
  | .vrtx _ => true
  | .pvrtx _ _ => true
  | _ => false

/-- Text of a record when the next vertex is number `base + n`. -/
def ERec.line (base n : Nat) : ERec D → Str
  | .vrtx p => cs!"VRTX" ++ spaced (showNat (base + n) :: p.toks)
  | .pvrtx p vals => cs!"PVRTX" ++ spaced (showNat (base + n) :: (p.toks ++ vals.map Num.fmt))
  | .seg a b => cs!"SEG" ++ spaced [showNat (base + a), showNat (base + b)]
  | .iline => cs!"ILINE"

/-- Text of a body. -/
def renderE (base : Nat) : Nat → List (ERec D) → File
  | _, [] => []
  | n, r :: rs => r.line base n :: renderE base (if r.defines then n + 1 else n) rs

/-- What a record says. -/
def ERec.step (ec : ECurve D) : ERec D → ECurve D
  | .vrtx p => { ec with points := ec.points ++ [pointOf ec.crs.zPos p] }
  | .pvrtx p _ => { ec with points := ec.points ++ [pointOf ec.crs.zPos p] }
  | .seg a b => { ec with edges := ec.edges ++ [(a, b)] }
  | .iline => ec

/-- What a list of records says. -/
def meaningE (ec : ECurve D) (rs : List (ERec D)) : ECurve D := rs.foldl ERec.step ec

/-- All numbers fit in 32 bits. -/
def FitsE (base : Nat) (rs : List (ERec D)) : Prop :=
  base < W ∧ ∀ a b, .seg a b ∈ rs → base + a < W ∧ base + b < W

/-- Same state with another offset. -/
def setOffE (b : Nat) (ec : ECurve D) : ECurve D := { ec with offset := b }

theorem stepE_length (ec : ECurve D) (r : ERec D) :
    (r.step ec).points.length = if r.defines then ec.points.length + 1 else ec.points.length := by
  cases r <;> simp [ERec.step, ERec.defines]

/-- How an object ends: with `END` and what follows, or with the end of the file. -/
inductive Tail where
  | theEnd (rest : File)
  | eof

/-- Text of the ending. -/
def Tail.text : Tail → File
  | .theEnd rest => cs!"END" :: rest
  | .eof => []

/-- What is left to read. -/
def Tail.rest : Tail → File
  | .theEnd rest => rest
  | .eof => []

theorem read_renderE [LawfulNum D] {base : Nat} (rs : List (ERec D)) {n : Nat} {ec : ECurve D} (hn : ec.points.length = n)
    (hne : ec.points ≠ []) (hf : FitsE base rs) (tail : Tail) :
    readIlinesLoop (setOffE base ec) (renderE base n rs ++ tail.text) = .ok (setOffE base (meaningE ec rs), tail.rest) := by
  induction rs generalizing n ec with
  | nil => cases tail <;> rfl
  | cons r rs ih =>
    have hemp : ec.points.isEmpty = false := by cases h : ec.points <;> simp_all
    have hpos : 0 < n := by rw [← hn]; exact List.length_pos_iff.2 hne
    have hl := stepE_length ec r
    rw [hn] at hl
    have hne' : (r.step ec).points ≠ [] := List.ne_nil_of_length_pos (by rw [hl]; split <;> omega)
    have ih' := ih (ec := r.step ec) hl hne' ⟨hf.1, fun a b h => hf.2 a b (by simp [h])⟩
    rw [renderE, List.cons_append]
    cases r with
    | vrtx p =>
      have hs : split (ERec.line base n (.vrtx p)) = cs!"VRTX" :: showNat (base + n) :: (p.toks ++ []) := by
        rw [List.append_nil]
        apply split_kw_spaced (by decide)
        intro t ht
        rcases List.mem_cons.1 ht with rfl | ht
        · exact isTok_showNat _
        · exact isTok_toks p t ht
      rw [readIlinesLoop, hs]
      simp only
      rw [if_neg (by decide), plLine, if_pos (Or.inl rfl)]
      unfold plVrtx
      rw [pointOf_toks]
      simp only [setOffE, hemp, Bool.false_eq_true, if_false, Res.pure_eq, Res.ok_bind]
      exact ih'
    | pvrtx p vals =>
      have hs : split (ERec.line base n (.pvrtx p vals)) = cs!"PVRTX" :: showNat (base + n) :: (p.toks ++ vals.map Num.fmt) := by
        apply split_kw_spaced (by decide)
        intro t ht
        rcases List.mem_cons.1 ht with rfl | ht
        · exact isTok_showNat _
        · rcases List.mem_append.1 ht with ht | ht
          · exact isTok_toks p t ht
          · obtain ⟨v, _, rfl⟩ := List.mem_map.1 ht
            exact LawfulNum.fmt_tok v
      rw [readIlinesLoop, hs]
      simp only
      rw [if_neg (by decide), plLine, if_pos (Or.inr rfl)]
      unfold plVrtx
      rw [pointOf_toks]
      simp only [setOffE, hemp, Bool.false_eq_true, if_false, Res.pure_eq, Res.ok_bind]
      exact ih'
    | seg a b =>
      obtain ⟨ha, hb⟩ := hf.2 a b (by simp)
      have hs : split (ERec.line base n (.seg a b : ERec D)) = [cs!"SEG", showNat (base + a), showNat (base + b)] :=
        split_kw_spaced (by decide) (by intro t ht; simp at ht; rcases ht with rfl | rfl <;> exact isTok_showNat _)
      rw [readIlinesLoop, hs]
      simp only
      rw [if_neg (by decide), plLine, if_neg (by decide), if_pos rfl]
      simp only [plSeg, Res.index_cons_succ, Res.index_cons_zero, Res.ok_bind, readIndex_showNat ha, readIndex_showNat hb,
        setOffE, sub32_base ha, sub32_base hb, Res.pure_eq]
      exact ih'
    | iline =>
      have hs : split (ERec.line base n (.iline : ERec D)) = [cs!"ILINE"] := by rfl
      rw [readIlinesLoop, hs]
      simp only
      rw [if_neg (by decide), plLine, if_neg (by decide), if_neg (by decide)]
      exact ih'

theorem read_bodyE [LawfulNum D] {base : Nat} (p : Pt D) (rs : List (ERec D)) {ec : ECurve D}
    (he : ec.points = []) (hf : FitsE base (.vrtx p :: rs)) (tail : Tail) :
    readIlinesLoop ec (renderE base 0 (.vrtx p :: rs) ++ tail.text) =
      .ok (setOffE base (meaningE ec (.vrtx p :: rs)), tail.rest) := by
  have hs : split (ERec.line base 0 (.vrtx p)) = cs!"VRTX" :: showNat (base + 0) :: (p.toks ++ []) := by
    rw [List.append_nil]
    apply split_kw_spaced (by decide)
    intro t ht
    rcases List.mem_cons.1 ht with rfl | ht
    · exact isTok_showNat _
    · exact isTok_toks p t ht
  rw [renderE, List.cons_append, readIlinesLoop, hs]
  simp only
  rw [if_neg (by decide), plLine, if_pos (Or.inl rfl)]
  unfold plVrtx
  rw [pointOf_toks]
  simp only [he, List.isEmpty_nil, if_true, Res.index_cons_succ, Res.index_cons_zero, Res.ok_bind,
    readIndex_showNat (show base + 0 < W from hf.1), Res.pure_eq]
  have := read_renderE (base := base) rs (n := 1) (ec := { ec with points := [] ++ [pointOf ec.crs.zPos p] }) (by simp)
    (by simp) ⟨hf.1, fun a b h => hf.2 a b (by simp [h])⟩ tail
  have e : meaningE ec (.vrtx p :: rs) = meaningE { ec with points := [] ++ [pointOf ec.crs.zPos p] } rs := by
    simp [meaningE, ERec.step, he]
  rw [e]
  exact this

theorem read_bodyEP [LawfulNum D] {base : Nat} (p : Pt D) (vals : List D) (rs : List (ERec D)) {ec : ECurve D}
    (he : ec.points = []) (hf : FitsE base (.pvrtx p vals :: rs)) (tail : Tail) :
    readIlinesLoop ec (renderE base 0 (.pvrtx p vals :: rs) ++ tail.text) =
      .ok (setOffE base (meaningE ec (.pvrtx p vals :: rs)), tail.rest) := by
  have hs : split (ERec.line base 0 (.pvrtx p vals)) = cs!"PVRTX" :: showNat (base + 0) :: (p.toks ++ vals.map Num.fmt) := by
    apply split_kw_spaced (by decide)
    intro t ht
    rcases List.mem_cons.1 ht with rfl | ht
    · exact isTok_showNat _
    · rcases List.mem_append.1 ht with ht | ht
      · exact isTok_toks p t ht
      · obtain ⟨v, _, rfl⟩ := List.mem_map.1 ht
        exact LawfulNum.fmt_tok v
  rw [renderE, List.cons_append, readIlinesLoop, hs]
  simp only
  rw [if_neg (by decide), plLine, if_pos (Or.inr rfl)]
  unfold plVrtx
  rw [pointOf_toks]
  simp only [he, List.isEmpty_nil, if_true, Res.index_cons_succ, Res.index_cons_zero, Res.ok_bind,
    readIndex_showNat (show base + 0 < W from hf.1), Res.pure_eq]
  have := read_renderE (base := base) rs (n := 1) (ec := { ec with points := [] ++ [pointOf ec.crs.zPos p] }) (by simp)
    (by simp) ⟨hf.1, fun a b h => hf.2 a b (by simp [h])⟩ tail
  have e : meaningE ec (.pvrtx p vals :: rs) = meaningE { ec with points := [] ++ [pointOf ec.crs.zPos p] } rs := by
    simp [meaningE, ERec.step, he]
  rw [e]
  exact this

end Verif.GocadBody
