import Verif.Lemmas.Decimal
import Verif.Props.TSurf
import Verif.Props.VSet
import Verif.Props.PLineLoops
import Verif.Props.GocadStable
import Verif.Props.GeosFiles
import Verif.Props.FemValues
import Verif.Props.LsoRoundTrip
import Verif.Props.MlRoundTrip

/-!
# Coordinates are written with six digits

The numbers of the model are here the doubles, written with six significant digits and read to the nearest double (`Model/Decimal.lean`).  They have
the laws assumed elsewhere (`LawfulNum`, `Settled`, `PlainNumbers`), and how far coordinates move can be told.
-/

namespace Verif.Props.Digits

open Verif Verif.Decimal Verif.Gocad Verif.GocadMesh

/-- The doubles: 53 binary digits, without bound on the exponent. -/
structure Dbl where
  v : ℚ
  ok : IsSig 2 53 v

theorem Dbl.ext' {a b : Dbl} (h : a.v = b.v) : a = b := by
  cases a
  cases b
  cases h
  rfl

instance : DecidableEq Dbl := fun a b => decidable_of_iff (a.v = b.v) ⟨Dbl.ext', fun h => h ▸ rfl⟩

/-- The nearest double. -/
def toDbl (q : ℚ) : Dbl := ⟨toDouble q, roundTo_sig (by decide) (by decide) q⟩

instance : Num Dbl where
  parse s := (readDecimal s).map toDbl
  fmt d := text (six d.v)
  round d := toDbl (six d.v)
  neg d := ⟨-d.v, d.ok.neg⟩
  castF d := ⟨toFloat d.v, (roundTo_sig (by decide) (by decide) d.v).more (p := 24) (by decide) (by decide) 29⟩
  zero := toDbl 0
  noData := toDbl (-99999)

theorem six_sig (q : ℚ) : IsSig 10 6 (six q) := roundTo_sig (by decide) (by decide) q

/-! ## The laws of numbers -/

theorem fmt_chars (d : Dbl) : ∀ c ∈ Num.fmt d, NumChar c := text_chars _

theorem numChar_iff {c : Char} (h : NumChar c) : c ∈ cs!"0123456789.e-+" := by
  rcases h with ⟨d, hd, rfl⟩ | rfl | rfl | rfl | rfl
  · have : ∀ d : Fin 10, digitChar d.val ∈ cs!"0123456789.e-+" := by decide
    exact this ⟨d, hd⟩
  all_goals decide

/-- Numbers are written with digits, points, signs and the letter e. -/
theorem not_written {c : Char} (h : c ∉ cs!"0123456789.e-+") (d : Dbl) : c ∉ Num.fmt d := fun hc => h (numChar_iff (fmt_chars d c hc))

instance : LawfulNum Dbl where
  parse_fmt d := by
    change (readDecimal (text (six d.v))).map toDbl = _
    rw [readDecimal_text (six_sig _)]
    rfl
  fmt_tok d := by
    refine ⟨fun h => ?_, fun c hc => ?_⟩
    · obtain ⟨c, r, e, _⟩ := text_cons (six d.v)
      change text (six d.v) = [] at h
      rw [e] at h
      cases h
    · have h := numChar_iff (fmt_chars d c hc)
      have : ∀ c ∈ cs!"0123456789.e-+", isWs c = false := by decide
      exact this c h
  fmt_noquote := not_written (by decide)
  neg_neg d := Dbl.ext' (neg_neg d.v)

/-- Rounding to doubles. -/
theorem toDouble_close (q : ℚ) : |toDouble q - q| * 2 ^ 53 ≤ |q| := by
  have h := roundTo_close (b := 2) (p := 53) (by decide) (by decide) q
  norm_num at h ⊢
  exact h

/-- Rounding to floats. -/
theorem toFloat_close (q : ℚ) : |toFloat q - q| * 2 ^ 24 ≤ |q| := by
  have h := roundTo_close (b := 2) (p := 24) (by decide) (by decide) q
  norm_num at h ⊢
  exact h

/-- Rounding to six digits. -/
theorem six_close (q : ℚ) : |six q - q| * 200000 ≤ |q| := by
  have h := roundTo_close (b := 10) (p := 6) (by decide) (by decide) q
  norm_num at h ⊢
  exact h

/-- Two roundings one after the other. -/
theorem close_trans {a b c x y : ℚ} (h1 : |b - a| ≤ x * |a|) (h2 : |c - b| ≤ y * |b|) (hy : 0 ≤ y) : |c - a| ≤ (x + y * (1 + x)) * |a| := by
  have h3 : |c - a| ≤ |c - b| + |b - a| := by
    have := abs_add_le (c - b) (b - a)
    rwa [sub_add_sub_cancel] at this
  have h4 : |b| ≤ |a| + |b - a| := by
    have := abs_add_le a (b - a)
    rwa [add_sub_cancel] at this
  have h5 : y * |b| ≤ y * (|a| + x * |a|) := mul_le_mul_of_nonneg_left (by linarith) hy
  linarith

theorem six_eq {s q : ℚ} (hs : IsSig 10 6 s) (h : |q - s| ≤ 1 / 10000000 * |s|) : six q = s :=
  roundTo_eq (by decide) (by decide) hs (by norm_num) (by norm_num) h

instance : GocadStable.Settled Dbl where
  fmt_round d := by
    change text (six (toDouble (six d.v))) = text (six d.v)
    rw [six_eq (six_sig _)]
    have h := toDouble_close (six d.v)
    have := abs_nonneg (six d.v)
    norm_num at h
    linarith
  fmt_cast d := by
    change text (six (toFloat (toDouble (six (toFloat d.v))))) = text (six (toFloat d.v))
    rw [six_eq (six_sig _)]
    have h1 : |toDouble (six (toFloat d.v)) - six (toFloat d.v)| ≤ 1 / 2 ^ 53 * |six (toFloat d.v)| := by
      have h := toDouble_close (six (toFloat d.v))
      norm_num at h ⊢
      linarith
    have h2 : |toFloat (toDouble (six (toFloat d.v))) - toDouble (six (toFloat d.v))| ≤ 1 / 2 ^ 24 * |toDouble (six (toFloat d.v))| := by
      have h := toFloat_close (toDouble (six (toFloat d.v)))
      norm_num at h ⊢
      linarith
    refine le_trans (close_trans h1 h2 (by norm_num)) (mul_le_mul_of_nonneg_right ?_ (abs_nonneg _))
    norm_num

/-- Numbers are not keywords. -/
theorem plain : Ml.PlainNumbers Dbl := by
  intro d h
  obtain ⟨c, r, e, hc⟩ := text_cons (six d.v)
  change text (six d.v) ∈ _ at h
  rw [e] at h
  have h1 : c ∈ cs!"0123456789.e-+" := numChar_iff (hc.elim (fun h => Or.inr (Or.inr (Or.inr (Or.inl h)))) Or.inl)
  have h2 : ∀ c ∈ cs!"0123456789.e-+", ∀ k ∈ Ml.keywords, k.head? ≠ some c := by decide
  exact h2 c h1 _ h rfl

/-- Opposite numbers are read as opposite numbers. -/
theorem round_neg (d : Dbl) : Num.round (Num.neg d) = Num.neg (Num.round d) := by
  apply Dbl.ext'
  change toDouble (six (-d.v)) = -toDouble (six d.v)
  rw [six, roundTo_neg, toDouble, roundTo_neg]
  rfl

/-- **C09 for doubles**: the assumption of `depth_ts`, `depth_pl` and `depth_vs` is true of them.  (For surfaces; the other ones are alike.) -/
theorem depth {base : Nat} {name : Option Str} {names : List Str} (hname : ∀ n, name = some n → GoodObjectName n)
    (hnames : GoodNames names) (p : Pt Dbl) (vals : List Dbl) (rs : List (GocadBody.Rec Dbl)) (hf : GocadBody.Fits base 0 (.vrtx p vals :: rs)) :
    (loadTS (Props.GocadBody.fileTS false base name names (.vrtx p vals :: rs)) : Res (Loaded Tri Dbl)) =
      loadTS (Props.GocadBody.fileTS true base name names ((.vrtx p vals :: rs).map Props.GocadBody.negZ)) :=
  Props.GocadBody.depth_ts round_neg hname hnames p vals rs hf

/-! ## How far numbers move -/

/-- The number read is within one part in 199999 of the number written. -/
def Close (a b : Dbl) : Prop := |b.v - a.v| * 199999 ≤ |a.v|

theorem close (d : Dbl) : Close d (Num.round d) := by
  have h1 : |six d.v - d.v| ≤ 1 / 200000 * |d.v| := by
    have := six_close d.v
    linarith
  have h2 : |toDouble (six d.v) - six d.v| ≤ 1 / 2 ^ 53 * |six d.v| := by
    have h := toDouble_close (six d.v)
    norm_num at h ⊢
    linarith
  have h3 := close_trans h1 h2 (by norm_num)
  have h4 : (1 / 200000 + 1 / 2 ^ 53 * (1 + 1 / 200000) : ℚ) * |d.v| ≤ 1 / 199999 * |d.v| :=
    mul_le_mul_of_nonneg_right (by norm_num) (abs_nonneg _)
  change |toDouble (six d.v) - d.v| * 199999 ≤ |d.v|
  linarith

/-- A number is kept when it is the double of a number with six digits, and only then. -/
theorem kept_iff (d : Dbl) : Num.round d = d ↔ ∃ s, IsSig 10 6 s ∧ toDouble s = d.v := by
  constructor
  · intro h
    exact ⟨six d.v, six_sig _, congrArg Dbl.v h⟩
  · rintro ⟨s, hs, e⟩
    apply Dbl.ext'
    change toDouble (six d.v) = d.v
    rw [six_eq hs, e]
    have h := toDouble_close s
    rw [e] at h
    have := abs_nonneg s
    norm_num at h
    linarith

/-- Numbers that differ by more than the digits tell are read as different numbers. -/
theorem apart {a b : Dbl} (h : |a.v| + |b.v| < |a.v - b.v| * 199999) : Num.round a ≠ Num.round b := by
  intro e
  have h1 := close a
  have h2 := close b
  rw [Close] at h1 h2
  rw [← e] at h2
  have h4 : |a.v - b.v| ≤ |a.v - (Num.round a).v| + |(Num.round a).v - b.v| := by
    have := abs_add_le (a.v - (Num.round a).v) ((Num.round a).v - b.v)
    rwa [sub_add_sub_cancel] at this
  rw [abs_sub_comm a.v (Num.round a).v] at h4
  linarith

/-! ## Points of meshes and models -/

/-- The point read is near the point written. -/
def PtClose (p q : Pt Dbl) : Prop := Close p.x q.x ∧ Close p.y q.y ∧ Close p.z q.z

theorem ptClose (p : Pt Dbl) : PtClose p p.round := ⟨close _, close _, close _⟩

theorem pointsClose (ps : List (Pt Dbl)) : List.Forall₂ PtClose ps (ps.map Pt.round) := by
  induction ps with
  | nil => exact .nil
  | cons p ps ih => exact .cons (ptClose p) ih

/-- Property values are rounded to floats before they are written. -/
def ValueClose (a b : Dbl) : Prop := |b.v - a.v| * 197000 ≤ |a.v|

theorem valueClose (d : Dbl) : ValueClose d (Num.round (Num.castF d)) := by
  have h1 : |toFloat d.v - d.v| ≤ 1 / 2 ^ 24 * |d.v| := by
    have h := toFloat_close d.v
    norm_num at h ⊢
    linarith
  have h2 : |(Num.round (Num.castF d)).v - toFloat d.v| ≤ 1 / 199999 * |toFloat d.v| := by
    have h := close (Num.castF d)
    change |(Num.round (Num.castF d)).v - toFloat d.v| * 199999 ≤ |toFloat d.v| at h
    linarith
  have h3 := close_trans h1 h2 (by norm_num)
  have h4 : (1 / 2 ^ 24 + 1 / 199999 * (1 + 1 / 2 ^ 24) : ℚ) * |d.v| ≤ 1 / 197000 * |d.v| :=
    mul_le_mul_of_nonneg_right (by norm_num) (abs_nonneg _)
  change |(Num.round (Num.castF d)).v - d.v| * 197000 ≤ |d.v|
  linarith

/-- Surfaces: points and property values. -/
theorem ts_close {m : Mesh Tri Dbl} (g : GoodSurf m) (hd : ((written m.attrs).map Attr.name).Nodup) :
    ∃ l : Loaded Tri Dbl, loadTS (saveTS m) = .ok l ∧ l.cells = m.cells ∧ List.Forall₂ PtClose m.points l.points ∧
      ∀ a ∈ m.attrs, IsProperty a → ∃ c, l.store.lookup a.name = some c ∧ ∀ v, v < m.points.length → ∃ x, c.vals[v]? = some [x] ∧ ValueClose (a.val v) x := by
  refine ⟨_, TSurf.load_save g hd, rfl, pointsClose _, ?_⟩
  intro a ha hp
  obtain ⟨l, e, _, _, h⟩ := TSurf.roundtrip_properties g hd
  rw [TSurf.load_save g hd, Res.ok.injEq] at e
  obtain ⟨c, h1, _, h2⟩ := h a ha hp
  rw [← e] at h1
  exact ⟨c, h1, fun v hv => ⟨_, h2 v hv, valueClose _⟩⟩

/-- Point sets: points and property values. -/
theorem vs_close {m : Mesh Empty Dbl} (g : GoodVSet m) (hne : m.points ≠ []) (hd : ((written m.attrs).map Attr.name).Nodup) :
    ∃ l : Loaded Empty Dbl, loadVS (saveVS m) = .ok l ∧ List.Forall₂ PtClose m.points l.points ∧
      ∀ a ∈ m.attrs, IsProperty a → ∃ c, l.store.lookup a.name = some c ∧ ∀ v, v < m.points.length → ∃ x, c.vals[v]? = some [x] ∧ ValueClose (a.val v) x := by
  obtain ⟨l, h1, _, h2, _, _, h3⟩ := VSet.roundtrip_partial g hne hd
  refine ⟨l, h1, h2 ▸ pointsClose _, ?_⟩
  intro a ha hp
  obtain ⟨c, h4, _, h5⟩ := h3 a ha hp
  exact ⟨c, h4, fun v hv => ⟨_, h5 v hv, valueClose _⟩⟩

/-- The ends of a segment are near those of another. -/
def SegClose (P Q : List (Pt Dbl)) (c e : Edge) : Prop :=
  ∃ a b a' b', P[c.1]? = some a ∧ P[c.2]? = some b ∧ ((Q[e.1]? = some a' ∧ Q[e.2]? = some b') ∨ (Q[e.1]? = some b' ∧ Q[e.2]? = some a')) ∧
    PtClose a' a ∧ PtClose b' b

theorem segClose {P Q : List (Pt Dbl)} {c e : Edge} (h : GocadWalk.SameSeg P (Q.map Pt.round) c e) : SegClose P Q c e := by
  obtain ⟨a, b, h1, h2, h⟩ := h
  have key : ∀ {i : Nat} {p : Pt Dbl}, (Q.map Pt.round)[i]? = some p → ∃ q, Q[i]? = some q ∧ PtClose q p := by
    intro i p h
    rw [List.getElem?_map, Option.map_eq_some_iff] at h
    obtain ⟨q, h3, rfl⟩ := h
    exact ⟨q, h3, ptClose q⟩
  rcases h with ⟨h3, h4⟩ | ⟨h3, h4⟩
  · obtain ⟨a', h5, h6⟩ := key h3
    obtain ⟨b', h7, h8⟩ := key h4
    exact ⟨a, b, a', b', h1, h2, Or.inl ⟨h5, h7⟩, h6, h8⟩
  · obtain ⟨b', h5, h6⟩ := key h3
    obtain ⟨a', h7, h8⟩ := key h4
    exact ⟨a, b, a', b', h1, h2, Or.inr ⟨h5, h7⟩, h8, h6⟩

/-- Curves, when their segments are kept: the ends of the segments. -/
theorem pl_close {m : Mesh Edge Dbl} (h : PLineLoops.RoundTrip m) :
    ∃ f l es, savePL m = .ok f ∧ loadPL f = .ok l ∧ es.Perm m.cells ∧ List.Forall₂ (SegClose l.points m.points) l.cells es := by
  obtain ⟨f, l, es, h1, h2, h3, h4⟩ := h
  exact ⟨f, l, es, h1, h2, h3, h4.imp fun _ _ => segClose⟩

/-- LSO models: the vertices of the tetrahedra. -/
theorem lso_close {m : Lso.Model Dbl} (h : Lso.Loadable m) (hc : Lso.Coherent m) (hn : ∀ b ∈ m.blocks, IsTok b.name)
    (hd : (m.blocks.map Lso.Block.name).Nodup) {sides : Sides.AllSides} {f : File} (hf : Lso.saveLso m sides = .ok f) :
    ∃ L : Lso.Loaded Dbl, Lso.loadLso f = .ok L ∧ List.Forall₂ (fun b r => ∃ (pts : List (Pt Dbl)) (σ : Nat → Nat), Lso.meshPoints L.solid r.vertices = .ok pts ∧
      r.tetras = b.tetras.map (List.map σ) ∧ ∀ t ∈ b.tetras, ∀ v ∈ t, ∃ p q, b.points[v]? = some p ∧ pts[σ v]? = some q ∧ PtClose p q) m.blocks L.blocks := by
  obtain ⟨L, h1, _, h2⟩ := LsoRoundTrip.tetrahedra_kept h hc hn hd hf
  refine ⟨L, h1, h2.imp ?_⟩
  rintro b r ⟨_, pts, σ, h3, h4, _, h5⟩
  refine ⟨pts, σ, h3, h4, fun t ht v hv => ?_⟩
  obtain ⟨p, h6, h7⟩ := h5 t ht v hv
  exact ⟨p, _, h6, h7, ptClose p⟩

/-- ML models: the points of the surfaces. -/
theorem ml_close {m : Ml.Model Dbl} {sides : Sides.AllSides} (g : Ml.GoodModel m sides) :
    ∃ (f : File) (L : Ml.Loaded Dbl), Ml.saveMl m sides = .ok f ∧ Ml.loadMl f = .ok L ∧
      List.Forall₂ (fun i s => List.Forall₂ PtClose (Ml.surfaceAt m i).points s.2.1 ∧ s.2.2 = (Ml.surfaceAt m i).triangles) (Ml.order m) L.meshes := by
  obtain ⟨f, L, h1, h2, h3⟩ := MlRoundTrip.round_trip plain g
  refine ⟨f, L, h1, h2, ?_⟩
  rw [h3.meshes, List.forall₂_map_right_iff]
  exact List.forall₂_same.2 fun i _ => ⟨pointsClose _, rfl⟩

/-- Surfaces saved, loaded and saved again: the same file. -/
theorem ts_saved_again {m : Mesh Tri Dbl} (g : GoodSurf m) (hd : ((written m.attrs).map Attr.name).Nodup) {l : Loaded Tri Dbl}
    (hl : loadTS (saveTS m) = .ok l) {m' : Mesh Tri Dbl} (h : GocadStable.Holds m' l) (hkw : m'.attrs = [] ↔ m.attrs = []) : saveTS m' = saveTS m :=
  GocadStable.ts_stable g hd hl h hkw

/-- Point sets saved, loaded and saved again: the same file. -/
theorem vs_saved_again {m : Mesh Empty Dbl} (g : GoodVSet m) (hne : m.points ≠ []) (hd : ((written m.attrs).map Attr.name).Nodup)
    {l : Loaded Empty Dbl} (hl : loadVS (saveVS m) = .ok l) {m' : Mesh Empty Dbl} (h : GocadStable.Holds m' l) (hkw : m'.attrs = [] ↔ m.attrs = []) :
    saveVS m' = saveVS m :=
  GocadStable.vs_stable g hne hd hl h hkw

/-! ## Different vertices -/

/-- Different vertices of a saved surface are different in the loaded surface. -/
def StayApart (m : Mesh Tri Dbl) : Prop := m.points.Nodup → ∀ l : Loaded Tri Dbl, loadTS (saveTS m) = .ok l → l.points.Nodup

/-- Two points differ by more than the digits tell. -/
def Apart (p q : Pt Dbl) : Prop :=
  |p.x.v| + |q.x.v| < |p.x.v - q.x.v| * 199999 ∨ |p.y.v| + |q.y.v| < |p.y.v - q.y.v| * 199999 ∨ |p.z.v| + |q.z.v| < |p.z.v - q.z.v| * 199999

theorem round_apart {p q : Pt Dbl} (h : Apart p q) : p.round ≠ q.round := by
  intro e
  have e1 : Num.round p.x = Num.round q.x := congrArg Pt.x e
  have e2 : Num.round p.y = Num.round q.y := congrArg Pt.y e
  have e3 : Num.round p.z = Num.round q.z := congrArg Pt.z e
  rcases h with h | h | h
  · exact apart h e1
  · exact apart h e2
  · exact apart h e3

/-- It holds when any two vertices differ by more than the digits tell.  (Full statement: `StayApart m` for all surfaces.) -/
theorem stay_apart_partial {m : Mesh Tri Dbl} (g : GoodSurf m) (hd : ((written m.attrs).map Attr.name).Nodup) (h : m.points.Pairwise Apart) : StayApart m := by
  intro _ l hl
  rw [TSurf.load_save g hd, Res.ok.injEq] at hl
  rw [← hl]
  change (m.points.map Pt.round).Pairwise (· ≠ ·)
  rw [List.pairwise_map]
  exact h.imp fun {_ _} => round_apart

/-- A triangle with sides of three and four metres, seven thousand kilometres from the origin. -/
def farTriangle : Mesh Tri Dbl where
  points := [⟨toDbl 1066960, toDbl 6894770, toDbl 0⟩, ⟨toDbl 1066963, toDbl 6894770, toDbl 0⟩, ⟨toDbl 1066960, toDbl 6894774, toDbl 0⟩]
  cells := [(0, 1, 2)]

theorem farTriangle_good : GoodSurf farTriangle where
  name := by intro n h; cases h
  names := by unfold GoodNames; decide
  tris := by decide
  size := by decide

/-- Its three corners become one point. -/
theorem far_triangle : farTriangle.points.Nodup ∧ ∃ (l : Loaded Tri Dbl) (p : Pt Dbl), loadTS (saveTS farTriangle) = .ok l ∧ l.points = [p, p, p] := by
  refine ⟨by decide +kernel, _, ⟨toDbl 1066960, toDbl 6894770, toDbl 0⟩, TSurf.load_save farTriangle_good (by decide), ?_⟩
  change farTriangle.points.map Pt.round = _
  decide +kernel

theorem not_apart : ¬∀ m : Mesh Tri Dbl, GoodSurf m → ((written m.attrs).map Attr.name).Nodup → StayApart m := by
  intro h
  obtain ⟨h1, l, p, h2, h3⟩ := far_triangle
  have := h _ farTriangle_good (by decide) h1 l h2
  rw [h3] at this
  simp at this

/-- The hypotheses of `stay_apart_partial` hold for a triangle with sides of a kilometre at the same place. -/
example : ∃ m : Mesh Tri Dbl, GoodSurf m ∧ ((written m.attrs).map Attr.name).Nodup ∧ m.points.Pairwise Apart := by
  refine ⟨{ points := [⟨toDbl 1066960, toDbl 6894770, toDbl 0⟩, ⟨toDbl 1067960, toDbl 6894770, toDbl 0⟩, ⟨toDbl 1066960, toDbl 6895770, toDbl 0⟩],
            cells := [(0, 1, 2)] }, ⟨fun n h => (by cases h), (by unfold GoodNames; decide), (by decide), (by decide)⟩, by decide, ?_⟩
  unfold Apart
  decide +kernel

/-! ## The boxes of the wells of GEOS -/

instance : LinearOrder Dbl := LinearOrder.lift' Dbl.v fun _ _ => Dbl.ext'

theorem le_iff {a b : Dbl} : a ≤ b ↔ a.v ≤ b.v := Iff.rfl

/-- `SAFETY_OFFSET`, a hundred times `GLOBAL_EPSILON`, model/internal/geos_export.cpp:234. -/
def offset : Dbl := toDbl (1 / 10000)

/-- The bounds of a box are moved by the offset. -/
def boxOffset : Geos.Moved Dbl := ⟨fun a => toDbl (a.v - offset.v), fun a => toDbl (a.v + offset.v)⟩

theorem offset_bounds : (99999 / 1000000000 : ℚ) ≤ offset.v ∧ offset.v ≤ 100001 / 1000000000 := by decide +kernel

/-- Writing and reading a double near a number. -/
theorem round_near (q : ℚ) : |(Num.round (toDbl q)).v - q| * 199998 ≤ |q| := by
  have h1 : |toDouble q - q| ≤ 1 / 2 ^ 53 * |q| := by
    have h := toDouble_close q
    norm_num at h ⊢
    linarith
  have h2 : |(Num.round (toDbl q)).v - toDouble q| ≤ 1 / 199999 * |toDouble q| := by
    have h := close (toDbl q)
    change |(Num.round (toDbl q)).v - toDouble q| * 199999 ≤ |toDouble q| at h
    linarith
  have h3 := close_trans h1 h2 (by norm_num)
  have h4 : (1 / 2 ^ 53 + 1 / 199999 * (1 + 1 / 2 ^ 53) : ℚ) * |q| ≤ 1 / 199998 * |q| := mul_le_mul_of_nonneg_right (by norm_num) (abs_nonneg _)
  linarith

/-- The offset is more than the six digits lose up to 19. -/
theorem moved_down {a : Dbl} (h : |a.v| ≤ 19) : Num.round (boxOffset.down a) ≤ a := by
  rw [le_iff]
  have h1 := round_near (a.v - offset.v)
  change |(Num.round (boxOffset.down a)).v - (a.v - offset.v)| * 199998 ≤ _ at h1
  obtain ⟨o1, o2⟩ := offset_bounds
  rw [abs_le] at h
  have h2 : |a.v - offset.v| ≤ 19 + 100001 / 1000000000 := abs_le.2 ⟨by linarith, by linarith⟩
  have h3 := le_abs_self ((Num.round (boxOffset.down a)).v - (a.v - offset.v))
  linarith

theorem moved_up {a : Dbl} (h : |a.v| ≤ 19) : a ≤ Num.round (boxOffset.up a) := by
  rw [le_iff]
  have h1 := round_near (a.v + offset.v)
  change |(Num.round (boxOffset.up a)).v - (a.v + offset.v)| * 199998 ≤ _ at h1
  obtain ⟨o1, o2⟩ := offset_bounds
  rw [abs_le] at h
  have h2 : |a.v + offset.v| ≤ 19 + 100001 / 1000000000 := abs_le.2 ⟨by linarith, by linarith⟩
  have h3 := neg_abs_le ((Num.round (boxOffset.up a)).v - (a.v + offset.v))
  linarith

/-- The box read contains the perforations of the well that are in the mesh.  (Full statement: without the hypothesis `hs`, refuted by `box_misses`.) -/
theorem small_box_partial {corners : Nat → List (Pt Dbl)} {near : Pt Dbl → List Nat} (hn : Geos.Around corners near) (dist : Pt Dbl → Nat → Dbl)
    {well : List (Pt Dbl)} {lo hi : Pt Dbl} (hb : Verif.Geos.wellBox corners near dist well = some (lo, hi))
    (hs : ∀ x ∈ [lo.x, lo.y, lo.z, hi.x, hi.y, hi.z], |x.v| ≤ 19) (i : Nat) :
    ∃ lo' hi', GeosFiles.Reads (Verif.Geos.boxNode boxOffset i (lo, hi)) lo' hi' ∧ ∀ p ∈ well, near p ≠ [] → Geos.Inside (some (lo', hi')) p := by
  refine ⟨_, _, GeosFiles.box_read (not_written (by decide)) boxOffset i lo hi, ?_⟩
  intro p hp hne
  obtain ⟨lo', hi', e, h1, h2, h3, h4, h5, h6⟩ := Geos.perforations_in_box_partial hn dist well p hp hne
  rw [hb] at e
  cases e
  simp only [List.mem_cons, List.not_mem_nil, or_false, forall_eq_or_imp, forall_eq] at hs
  obtain ⟨r1, r2, r3, r4, r5, r6⟩ := hs
  exact ⟨_, _, rfl, le_trans (moved_down r1) h1, le_trans (moved_down r2) h2, le_trans (moved_down r3) h3, le_trans h4 (moved_up r4),
    le_trans h5 (moved_up r5), le_trans h6 (moved_up r6)⟩

/-- The hypotheses hold for a well with a perforation in a cell. -/
example : ∃ lo' hi' : Pt Dbl, GeosFiles.Reads (Verif.Geos.boxNode boxOffset 0 (⟨toDbl 0, toDbl 0, toDbl 0⟩, ⟨toDbl 2, toDbl 2, toDbl 2⟩)) lo' hi' ∧
    Geos.Inside (some (lo', hi')) ⟨toDbl 1, toDbl 1, toDbl 1⟩ := by
  have hn : Geos.Around (fun _ => [(⟨toDbl 0, toDbl 0, toDbl 0⟩ : Pt Dbl), ⟨toDbl 2, toDbl 2, toDbl 2⟩])
      (fun p => if p = ⟨toDbl 1, toDbl 1, toDbl 1⟩ then [0] else []) := by
    intro p i hi
    by_cases h : p = ⟨toDbl 1, toDbl 1, toDbl 1⟩
    · subst h
      have a : toDbl 0 ≤ toDbl 1 := by decide +kernel
      have b : toDbl 1 ≤ toDbl 2 := by decide +kernel
      simp [a, b]
    · simp [h] at hi
  obtain ⟨lo', hi', h1, h2⟩ := small_box_partial hn (fun _ _ => toDbl 0) (well := [⟨toDbl 1, toDbl 1, toDbl 1⟩])
    (lo := ⟨toDbl 0, toDbl 0, toDbl 0⟩) (hi := ⟨toDbl 2, toDbl 2, toDbl 2⟩) (by decide +kernel) (by decide +kernel) 0
  exact ⟨lo', hi', h1, h2 _ (by simp) (by simp)⟩

/-- The text of a corner tells its numbers. -/
theorem corner_unique {a b c a' b' c' : Str} (h1 : ',' ∉ a) (h1' : ',' ∉ a')
    (h : cs!"{" ++ a ++ cs!", " ++ b ++ cs!", " ++ c ++ cs!"}" = cs!"{" ++ a' ++ cs!", " ++ b' ++ cs!", " ++ c' ++ cs!"}") : a = a' := by
  have key : ∀ {a b c : Str}, ',' ∉ a → (cs!"{" ++ a ++ cs!", " ++ b ++ cs!", " ++ c ++ cs!"}").takeWhile (· != ',') = cs!"{" ++ a := by
    intro a b c h
    have t := takeWhile_stop (p := (· != ',')) (a := cs!"{" ++ a) (c := ',') (r := cs!" " ++ b ++ cs!", " ++ c ++ cs!"}")
      (by
        intro x hx
        rcases List.mem_append.1 hx with hx | hx
        · rw [List.mem_singleton] at hx
          subst hx
          rfl
        · simp only [bne_iff_ne, ne_eq]
          exact fun e => h (e ▸ hx)) rfl
    rw [show cs!"{" ++ a ++ cs!", " ++ b ++ cs!", " ++ c ++ cs!"}" = cs!"{" ++ a ++ ',' :: (cs!" " ++ b ++ cs!", " ++ c ++ cs!"}") by simp]
    exact t.1
  have e := congrArg (List.takeWhile (· != ',')) h
  rw [key h1, key h1'] at e
  exact List.append_cancel_left e

/-- The lower bound in the first direction is read one way. -/
theorem reads_unique {node : Verif.Geos.Node} {lo hi lo' hi' : Pt Dbl} (h : GeosFiles.Reads node lo hi) (h' : GeosFiles.Reads node lo' hi') : lo.x = lo'.x := by
  obtain ⟨a, b, c, e, h1, _, _, h2, _⟩ := h cs!"xMin" lo (by simp)
  obtain ⟨a', b', c', e', h1', _, _, h2', _⟩ := h' cs!"xMin" lo' (by simp)
  rw [e, Option.some.injEq] at e'
  rw [← corner_unique h1 h1' e', h2, Option.some.injEq] at h2'
  exact h2'

/-- A perforation at the corner of the cell around it, a thousand kilometres from the origin. -/
def farCorner : Pt Dbl := ⟨toDbl 1066916, toDbl 0, toDbl 0⟩

/-- The box written for a well misses its perforation, by four metres. -/
theorem box_misses : ∃ (corners : Nat → List (Pt Dbl)) (near : Pt Dbl → List Nat) (lo hi : Pt Dbl), Geos.Around corners near ∧ near farCorner ≠ [] ∧
    Verif.Geos.wellBox corners near (fun _ _ => toDbl 0) [farCorner] = some (lo, hi) ∧
    ∀ lo' hi' : Pt Dbl, GeosFiles.Reads (Verif.Geos.boxNode boxOffset 0 (lo, hi)) lo' hi' → farCorner.x.v + 4 ≤ lo'.x.v := by
  refine ⟨fun _ => [farCorner, ⟨toDbl 1066926, toDbl 10, toDbl 10⟩], fun p => if p = farCorner then [0] else [], farCorner, ⟨toDbl 1066926, toDbl 10, toDbl 10⟩, ?_, ?_, ?_, ?_⟩
  · intro p i hi
    by_cases h : p = farCorner
    · subst h
      refine ⟨⟨farCorner, ?_⟩, ⟨farCorner, ?_⟩, ⟨farCorner, ?_⟩, ⟨farCorner, ?_⟩, ⟨farCorner, ?_⟩, ⟨farCorner, ?_⟩⟩ <;> exact ⟨by simp, le_refl _⟩
    · simp [h] at hi
  · simp
  · decide +kernel
  · intro lo' hi' h
    rw [reads_unique h (GeosFiles.box_read (not_written (by decide)) boxOffset 0 _ _)]
    decide +kernel

/-! ## The values of `.fem` files -/

/-- A value is written with its digits: within one part in 199999, as the coordinates are. -/
def KeepsDigits (d : Dbl) : Prop := ∃ r, readDecimal (fixed d.v) = some r ∧ |r - d.v| * 199999 ≤ |d.v|

/-- Each element is listed once, under a text that reads as its value up to half a millionth. -/
theorem fem_values (le : Dbl → Dbl → Bool) (name : Str) {values : List Dbl} (hn : values.length + 1 < NO_ID) :
    ∃ (lines : File) (ps : List (Str × Nat)), Fem.writeProperty (fun d : Dbl => fixed d.v) le values.length name values = .ok (name :: lines) ∧
      FemValues.readLines lines = some ps ∧ (ps.map Prod.snd).Perm ((List.range values.length).map (· + 1)) ∧
      ∀ p ∈ ps, ∃ i v r, p.2 = i + 1 ∧ values[i]? = some v ∧ readDecimal p.1 = some r ∧ |r - v.v| ≤ 1 / 2000000 := by
  obtain ⟨lines, ps, h1, h2, h3⟩ := FemValues.elements_listed (toStr := fun d : Dbl => fixed d.v) (fun v => fixed_tok v.v) le name hn
  refine ⟨lines, ps, h1, h2, ?_, ?_⟩
  · refine (h3.map _).trans (List.Perm.of_eq ?_)
    rw [List.map_map, List.range_eq_range', ← List.zipIdx_map_snd 0 values, List.map_map]
    rfl
  · intro p hp
    obtain ⟨⟨v, i⟩, hv, rfl⟩ := List.mem_map.1 (h3.mem_iff.1 hp)
    obtain ⟨r, hr, hc, _⟩ := readDecimal_fixed v.v
    refine ⟨i, v, r, rfl, ?_, hr, hc⟩
    rw [List.mem_zipIdx_iff_getElem?] at hv
    exact hv

/-- Values from a tenth on are written with their digits.  (Full statement: `KeepsDigits d` for all values.) -/
theorem digits_kept_partial {d : Dbl} (h : 1 / 10 ≤ |d.v|) : KeepsDigits d := by
  obtain ⟨r, hr, hc, _⟩ := readDecimal_fixed d.v
  exact ⟨r, hr, by linarith⟩

/-- Values below half a millionth are written as zero. -/
theorem small_values {d : Dbl} (h : |d.v| < 1 / 2000000) (h0 : d.v ≠ 0) : readDecimal (fixed d.v) = some 0 ∧ ¬KeepsDigits d := by
  obtain ⟨r, hr, _, hz⟩ := readDecimal_fixed d.v
  rw [hz h] at hr
  refine ⟨hr, ?_⟩
  rintro ⟨r', hr', hc⟩
  rw [hr, Option.some.injEq] at hr'
  rw [← hr', zero_sub, abs_neg] at hc
  have := abs_pos.2 h0
  linarith

/-- A permeability of a tenth of a darcy, in square metres, is written as zero. -/
theorem permeability : fixed (toDbl (1 / 10000000000000)).v = cs!"0.000000" ∧ ¬KeepsDigits (toDbl (1 / 10000000000000)) :=
  ⟨by decide +kernel, (small_values (by decide +kernel) (by decide +kernel)).2⟩

theorem digits_not_kept : ¬∀ d : Dbl, KeepsDigits d := fun h => permeability.2 (h _)

end Verif.Props.Digits
