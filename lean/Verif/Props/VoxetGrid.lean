import Verif.Props.Voxet
import Verif.Props.GocadHeaders

/-!
# C149: the grid described by the axes of a voxet
-/

namespace Verif.Props.VoxetGrid

open Verif Verif.Gocad Verif.GocadMesh Verif.Wells Verif.Voxet Verif.GocadCut Verif.Props.GocadTruncated

variable {D : Type} [Num D]

/-! ## Specification -/

/-- `l` is the first line of `f` that starts with `kw`, and `rest` comes after it. -/
def FirstWith (kw : Str) (f : File) (l : Str) (rest : File) : Prop :=
  ∃ pre, f = pre ++ l :: rest ∧ startsWith l kw = true ∧ ∀ x ∈ pre, startsWith x kw = false

/-- The line has a word and three coordinates. -/
def IsAxis (l : Str) (p : Pt D) : Prop :=
  ∃ k a b c, split l = [k, a, b, c] ∧ Num.parse a = some p.x ∧ Num.parse b = some p.y ∧ Num.parse c = some p.z

/-- The line has a word, three numbers of cells and maybe more. -/
def IsSize (l : Str) (n : Ijk) : Prop :=
  ∃ k a b c ts, split l = k :: a :: b :: c :: ts ∧ parseIndex a = some n.1 ∧ parseIndex b = some n.2.1 ∧ parseIndex c = some n.2.2

/-- The first line with `kw` gives the point `p`. -/
def Gives (kw : Str) (f : File) (p : Pt D) (rest : File) : Prop := ∃ l, FirstWith kw f l rest ∧ IsAxis l p

/-- The four axis lines, each of them looked for after the previous one. -/
def Frame (f : File) (o u v w : Pt D) (rest : File) : Prop :=
  ∃ f1 f2 f3, Gives cs!"AXIS_O" f o f1 ∧ Gives cs!"AXIS_U" f1 u f2 ∧ Gives cs!"AXIS_V" f2 v f3 ∧ Gives cs!"AXIS_W" f3 w rest

/-- The axis lines and then the numbers of cells. -/
def Axes (f : File) (o u v w : Pt D) (n : Ijk) (rest : File) : Prop :=
  ∃ f4 l, Frame f o u v w f4 ∧ FirstWith cs!"AXIS_N" f4 l rest ∧ IsSize l n

/-! ## Reading -/

theorem goto_iff {kw : Str} {f : File} {l : Str} {rest : File} : gotoKeyword kw f = .ok (l, rest) ↔ FirstWith kw f l rest := by
  constructor
  · intro h
    unfold gotoKeyword at h
    cases hk : gotoKeyword? kw f with
    | none => rw [hk] at h; simp at h
    | some p =>
      rw [hk] at h
      simp only [Res.ofParse_some, Res.ok.injEq] at h
      subst h
      obtain ⟨pre, e, h1, h2⟩ := gotoKeyword?_some hk
      exact ⟨pre, e, by assumption, by assumption⟩
  · rintro ⟨pre, rfl, h1, h2⟩
    induction pre with
    | nil => simp [gotoKeyword, gotoKeyword?, h1]
    | cons x pre ih =>
      have hx : startsWith x kw = false := h2 x (by simp)
      have := ih fun y hy => h2 y (by simp [hy])
      simpa [gotoKeyword, gotoKeyword?, hx] using this

theorem goto_throw {kw : Str} {f : File} : gotoKeyword kw f = .throw ↔ ∀ x ∈ f, startsWith x kw = false := by
  induction f with
  | nil => simp [gotoKeyword, gotoKeyword?]
  | cons x f ih =>
    cases hx : startsWith x kw with
    | true => simp [gotoKeyword, gotoKeyword?, hx]
    | false =>
      have : gotoKeyword kw (x :: f) = gotoKeyword kw f := by simp [gotoKeyword, gotoKeyword?, hx]
      rw [this, ih]
      simp [hx]

theorem goto_cases (kw : Str) (f : File) : (∃ l rest, gotoKeyword kw f = .ok (l, rest)) ∨ gotoKeyword kw f = .throw := by
  unfold gotoKeyword
  cases gotoKeyword? kw f with
  | none => exact Or.inr rfl
  | some p => exact Or.inl ⟨p.1, p.2, rfl⟩

theorem coord_cases (l : Str) : (∃ p : Pt D, wlCoord l 1 = .ok p ∧ IsAxis l p) ∨ ((wlCoord l 1 : Res (Pt D)) = .throw ∧ ¬ ∃ p : Pt D, IsAxis l p) := by
  unfold wlCoord IsAxis
  match hs : split l with
  | [k, a, b, c] =>
    unfold readDouble
    simp only [List.length_cons, List.length_nil, Nat.zero_add, Nat.reduceAdd, beq_self_eq_true, Res.check_true, Res.ok_bind,
      Res.index_cons_zero, Res.index_cons_succ]
    cases h1 : (Num.parse a : Option D) <;> cases h2 : (Num.parse b : Option D) <;> cases h3 : (Num.parse c : Option D)
    case some.some.some x y z =>
      left
      exact ⟨⟨x, y, z⟩, by simp, k, a, b, c, rfl, h1, h2, h3⟩
    all_goals
      right
      refine ⟨by simp, ?_⟩
      rintro ⟨p, k', a', b', c', e, e1, e2, e3⟩
      simp only [List.cons.injEq, and_true] at e
      obtain ⟨rfl, rfl, rfl, rfl⟩ := e
      simp_all
  | [] => right; simp
  | [_] => right; simp
  | [_, _] => right; simp
  | [_, _, _] => right; simp
  | _ :: _ :: _ :: _ :: _ :: _ => right; simp

theorem coord_iff {l : Str} {p : Pt D} : wlCoord l 1 = .ok p ↔ IsAxis l p := by
  constructor
  · intro h
    rcases coord_cases (D := D) l with ⟨q, hq, hi⟩ | ⟨ht, -⟩
    · rw [hq] at h
      simp only [Res.ok.injEq] at h
      exact h ▸ hi
    · rw [ht] at h; simp at h
  · intro hi
    rcases coord_cases (D := D) l with ⟨q, hq, k, a, b, c, hs, h1, h2, h3⟩ | ⟨-, hn⟩
    · obtain ⟨k', a', b', c', hs', h1', h2', h3'⟩ := hi
      rw [hs] at hs'
      simp only [List.cons.injEq, and_true] at hs'
      obtain ⟨rfl, rfl, rfl, rfl⟩ := hs'
      rw [hq]
      rw [h1] at h1'; rw [h2] at h2'; rw [h3] at h3'
      cases p; cases q
      simp_all
    · exact absurd ⟨p, hi⟩ hn

/-- A line of numbers of cells that ends before the third number. -/
def ShortSize (l : Str) : Prop := (split l).length < 4 ∧ ∀ t ∈ (split l).drop 1, (parseIndex t).isSome = true

theorem size_cases (l : Str) :
    (∃ n, readSize l = .ok n ∧ IsSize l n ∧ ¬ ShortSize l) ∨ (readSize l = .ub ∧ ShortSize l ∧ ¬ ∃ n, IsSize l n) ∨
      (readSize l = .throw ∧ ¬ ShortSize l ∧ ¬ ∃ n, IsSize l n) := by
  unfold readSize IsSize ShortSize readIndex
  match hs : split l with
  | [] => right; left; simp [Res.index]
  | [_] => right; left; simp [Res.index]
  | [_, a] =>
    cases h1 : parseIndex a <;> simp [Res.index, h1]
  | [_, a, b] =>
    cases h1 : parseIndex a <;> cases h2 : parseIndex b <;> simp [Res.index, h1, h2]
  | k :: a :: b :: c :: ts =>
    cases h1 : parseIndex a <;> cases h2 : parseIndex b <;> cases h3 : parseIndex c
    case some.some.some x y z =>
      left
      exact ⟨(x, y, z), by simp [Res.index, h1, h2, h3], ⟨k, a, b, c, ts, rfl, h1, h2, h3⟩, by simp⟩
    all_goals
      right; right
      refine ⟨by simp [Res.index, h1, h2, h3], by simp, ?_⟩
      rintro ⟨n, k', a', b', c', ts', e, e1, e2, e3⟩
      simp only [List.cons.injEq] at e
      obtain ⟨rfl, rfl, rfl, rfl, rfl⟩ := e
      simp_all

theorem size_iff {l : Str} {n : Ijk} : readSize l = .ok n ↔ IsSize l n := by
  constructor
  · intro h
    rcases size_cases l with ⟨m, hm, hi, -⟩ | ⟨hu, -⟩ | ⟨ht, -⟩
    · rw [hm] at h
      simp only [Res.ok.injEq] at h
      exact h ▸ hi
    · rw [hu] at h; simp at h
    · rw [ht] at h; simp at h
  · intro hi
    rcases size_cases l with ⟨m, hm, ⟨k, a, b, c, ts, hs, h1, h2, h3⟩, -⟩ | ⟨-, -, hn⟩ | ⟨-, -, hn⟩
    · obtain ⟨k', a', b', c', ts', hs', h1', h2', h3'⟩ := hi
      rw [hs] at hs'
      simp only [List.cons.injEq] at hs'
      obtain ⟨rfl, rfl, rfl, rfl, rfl⟩ := hs'
      rw [hm]
      rw [h1] at h1'; rw [h2] at h2'; rw [h3] at h3'
      obtain ⟨x, y, z⟩ := n
      obtain ⟨x', y', z'⟩ := m
      simp_all
    · exact absurd ⟨n, hi⟩ hn
    · exact absurd ⟨n, hi⟩ hn

/-- Cell lengths: the distance from the origin to the point of the axis, over the number of cells. -/
def lengths (g : Geo D) (o u v w : Pt D) (n : Ijk) : D × D × D := (g.div (g.dist o u) n.1, g.div (g.dist o v) n.2.1, g.div (g.dist o w) n.2.2)

/-- **C149.**  The grid that is read is the one of the first axis lines, each looked for after the previous one. -/
theorem grid_read {g : Geo D} {name : Option Str} {f : File} {grid : Grid D} {rest : File} : initGrid g name f = .ok (grid, rest) ↔
    ∃ o u v w n, Axes f o u v w n rest ∧ grid = { name := name, origin := o, size := n, len := lengths g o u v w n } := by
  unfold initGrid
  simp only [Res.bind_eq_ok, Res.pure_eq, Res.ok.injEq, Prod.mk.injEq]
  constructor
  · rintro ⟨⟨l1, f1⟩, h1, o, ho, ⟨l2, f2⟩, h2, u, hu, ⟨l3, f3⟩, h3, v, hv, ⟨l4, f4⟩, h4, w, hw, ⟨l5, f5⟩, h5, n, hn, e1, e2⟩
    subst e2
    exact ⟨o, u, v, w, n, ⟨f4, l5, ⟨f1, f2, f3, ⟨l1, goto_iff.1 h1, coord_iff.1 ho⟩, ⟨l2, goto_iff.1 h2, coord_iff.1 hu⟩,
      ⟨l3, goto_iff.1 h3, coord_iff.1 hv⟩, ⟨l4, goto_iff.1 h4, coord_iff.1 hw⟩⟩, goto_iff.1 h5, size_iff.1 hn⟩, e1.symm⟩
  · rintro ⟨o, u, v, w, n, ⟨f4, l5, ⟨f1, f2, f3, ⟨l1, h1, ho⟩, ⟨l2, h2, hu⟩, ⟨l3, h3, hv⟩, ⟨l4, h4, hw⟩⟩, h5, hn⟩, e⟩
    exact ⟨⟨l1, f1⟩, goto_iff.2 h1, o, coord_iff.2 ho, ⟨l2, f2⟩, goto_iff.2 h2, u, coord_iff.2 hu, ⟨l3, f3⟩, goto_iff.2 h3, v, coord_iff.2 hv,
      ⟨l4, f4⟩, goto_iff.2 h4, w, coord_iff.2 hw, ⟨l5, rest⟩, goto_iff.2 h5, n, size_iff.2 hn, e.symm, rfl⟩

/-! ## Other outcomes -/

/-- A point read on the first line with `kw`, then the rest of the work. -/
def axis {β : Type} (kw : Str) (f : File) (K : Pt D → File → Res β) : Res β := gotoKeyword kw f >>= fun r => wlCoord r.1 1 >>= fun q => K q r.2

theorem initGrid_eq (g : Geo D) (name : Option Str) (f : File) : initGrid g name f =
    axis cs!"AXIS_O" f fun o f => axis cs!"AXIS_U" f fun u f => axis cs!"AXIS_V" f fun v f => axis cs!"AXIS_W" f fun w f =>
      gotoKeyword cs!"AXIS_N" f >>= fun r => readSize r.1 >>= fun n =>
        .ok ({ name := name, origin := o, size := n, len := lengths g o u v w n }, r.2) := rfl

theorem gives_step {β : Type} {kw : Str} {f rest : File} {p : Pt D} (h : Gives kw f p rest) (K : Pt D → File → Res β) :
    axis kw f K = K p rest := by
  unfold axis
  obtain ⟨l, h1, h2⟩ := h
  rw [goto_iff.2 h1, Res.ok_bind, coord_iff.2 h2, Res.ok_bind]

theorem gives_none {β : Type} {kw : Str} {f : File} (h : ¬ ∃ (p : Pt D) (rest : File), Gives kw f p rest) (K : Pt D → File → Res β) :
    axis kw f K = .throw := by
  unfold axis
  rcases goto_cases kw f with ⟨l, rest, hg⟩ | hg
  · rw [hg, Res.ok_bind]
    rcases coord_cases (D := D) l with ⟨p, -, hi⟩ | ⟨ht, -⟩
    · exact absurd ⟨p, rest, l, goto_iff.1 hg, hi⟩ h
    · rw [ht]; rfl
  · rw [hg]; rfl

theorem initGrid_frame {g : Geo D} {name : Option Str} {f f4 : File} {o u v w : Pt D} (h : Frame f o u v w f4) :
    initGrid g name f = gotoKeyword cs!"AXIS_N" f4 >>= fun r => readSize r.1 >>= fun n =>
      .ok ({ name := name, origin := o, size := n, len := lengths g o u v w n }, r.2) := by
  obtain ⟨f1, f2, f3, h1, h2, h3, h4⟩ := h
  rw [initGrid_eq]
  refine (gives_step h1 _).trans ?_
  refine (gives_step h2 _).trans ?_
  refine (gives_step h3 _).trans ?_
  exact gives_step h4 _

theorem initGrid_no_frame {g : Geo D} {name : Option Str} {f : File} (h : ¬ ∃ (o u v w : Pt D) (f4 : File), Frame f o u v w f4) :
    initGrid g name f = .throw := by
  rw [initGrid_eq]
  by_cases h1 : ∃ (p : Pt D) (rest : File), Gives cs!"AXIS_O" f p rest
  · obtain ⟨o, f1, h1⟩ := h1
    refine (gives_step h1 _).trans ?_
    by_cases h2 : ∃ (p : Pt D) (rest : File), Gives cs!"AXIS_U" f1 p rest
    · obtain ⟨u, f2, h2⟩ := h2
      refine (gives_step h2 _).trans ?_
      by_cases h3 : ∃ (p : Pt D) (rest : File), Gives cs!"AXIS_V" f2 p rest
      · obtain ⟨v, f3, h3⟩ := h3
        refine (gives_step h3 _).trans ?_
        by_cases h4 : ∃ (p : Pt D) (rest : File), Gives cs!"AXIS_W" f3 p rest
        · obtain ⟨w, f4, h4⟩ := h4
          exact absurd ⟨o, u, v, w, f4, f1, f2, f3, h1, h2, h3, h4⟩ h
        · exact gives_none h4 _
      · exact gives_none h3 _
    · exact gives_none h2 _
  · exact gives_none h1 _

/-- The reader runs past the words of the line exactly when the four axes are there and the numbers of cells are not all there. -/
theorem grid_ub {g : Geo D} {name : Option Str} {f : File} : initGrid g name f = .ub ↔
    ∃ (o u v w : Pt D) (f4 : File) (l : Str) (rest : File), Frame f o u v w f4 ∧ FirstWith cs!"AXIS_N" f4 l rest ∧ ShortSize l := by
  constructor
  · intro h
    by_cases hf : ∃ (o u v w : Pt D) (f4 : File), Frame f o u v w f4
    · obtain ⟨o, u, v, w, f4, hf⟩ := hf
      rw [initGrid_frame hf] at h
      rcases goto_cases cs!"AXIS_N" f4 with ⟨l, rest, hg⟩ | hg
      · rw [hg, Res.ok_bind] at h
        rcases size_cases l with ⟨n, hn, -⟩ | ⟨-, hs, -⟩ | ⟨ht, -⟩
        · rw [hn] at h; simp at h
        · exact ⟨o, u, v, w, f4, l, rest, hf, goto_iff.1 hg, hs⟩
        · rw [ht] at h; simp at h
      · rw [hg] at h; simp at h
    · rw [initGrid_no_frame hf] at h; simp at h
  · rintro ⟨o, u, v, w, f4, l, rest, hf, hg, hs⟩
    rw [initGrid_frame hf, goto_iff.2 hg, Res.ok_bind]
    rcases size_cases l with ⟨-, -, -, hn⟩ | ⟨hu, -, -⟩ | ⟨-, hn, -⟩
    · exact absurd hs hn
    · rw [hu]; rfl
    · exact absurd hs hn

/-- In all other cases the file is refused. -/
theorem grid_outcomes (g : Geo D) (name : Option Str) (f : File) :
    (∃ r, initGrid g name f = .ok r) ∨ initGrid g name f = .ub ∨ initGrid g name f = .throw := by
  by_cases hf : ∃ (o u v w : Pt D) (f4 : File), Frame f o u v w f4
  · obtain ⟨o, u, v, w, f4, hf⟩ := hf
    rw [initGrid_frame hf]
    rcases goto_cases cs!"AXIS_N" f4 with ⟨l, rest, hg⟩ | hg
    · rw [hg, Res.ok_bind]
      rcases size_cases l with ⟨n, hn, -⟩ | ⟨hu, -, -⟩ | ⟨ht, -⟩
      · rw [hn]; exact Or.inl ⟨_, rfl⟩
      · rw [hu]; exact Or.inr (Or.inl rfl)
      · rw [ht]; exact Or.inr (Or.inr rfl)
    · rw [hg]; exact Or.inr (Or.inr rfl)
  · exact Or.inr (Or.inr (initGrid_no_frame hf))

/-! ## What the axes mean -/

/-- The end of a vector placed at a point. -/
def tip [Add D] (o u : Pt D) : Pt D := ⟨o.x + u.x, o.y + u.y, o.z + u.z⟩

/-- The axes of a voxet are vectors: moving the origin moves the grid and leaves the cells as they are. -/
def VectorAxes (D : Type) [Num D] [Add D] : Prop := ∀ (g : Geo D) (name : Option Str) (f : File) (grid : Grid D) (rest : File) (o u v w : Pt D) (n : Ijk),
  initGrid g name f = .ok (grid, rest) → Axes f o u v w n rest → grid.len = lengths g o (tip o u) (tip o v) (tip o w) n

/-- Distances along the axes, for the witnesses. -/
def geoA : Geo Int := ⟨fun p q => (q.x - p.x).natAbs + (q.y - p.y).natAbs + (q.z - p.z).natAbs, fun d n => d / n⟩

/-- A voxet of four cells of length 10 whose origin is at 100, 0, 0. -/
def moved : File := [cs!"AXIS_O 100 0 0", cs!"AXIS_U 20 0 0", cs!"AXIS_V 0 20 0", cs!"AXIS_W 0 0 10", cs!"AXIS_MIN 0 0 0", cs!"AXIS_MAX 1 1 1", cs!"AXIS_N 2 2 1"]

theorem moved_axes : Axes moved (⟨100, 0, 0⟩ : Pt Int) ⟨20, 0, 0⟩ ⟨0, 20, 0⟩ ⟨0, 0, 10⟩ (2, 2, 1) [] := by
  refine ⟨_, cs!"AXIS_N 2 2 1", ⟨_, _, _, ⟨cs!"AXIS_O 100 0 0", ⟨[], rfl, by decide, by simp⟩, cs!"AXIS_O", cs!"100", cs!"0", cs!"0", by decide +kernel⟩,
    ⟨cs!"AXIS_U 20 0 0", ⟨[], rfl, by decide, by simp⟩, cs!"AXIS_U", cs!"20", cs!"0", cs!"0", by decide +kernel⟩,
    ⟨cs!"AXIS_V 0 20 0", ⟨[], rfl, by decide, by simp⟩, cs!"AXIS_V", cs!"0", cs!"20", cs!"0", by decide +kernel⟩,
    ⟨cs!"AXIS_W 0 0 10", ⟨[], rfl, by decide, by simp⟩, cs!"AXIS_W", cs!"0", cs!"0", cs!"10", by decide +kernel⟩⟩,
    ⟨[cs!"AXIS_MIN 0 0 0", cs!"AXIS_MAX 1 1 1"], rfl, by decide, by decide⟩,
    cs!"AXIS_N", cs!"2", cs!"2", cs!"1", [], by decide +kernel⟩

/-- The cells of `moved` are loaded with lengths 40, 60 and 110 instead of 10, 10 and 10. -/
theorem moved_loaded : initGrid geoA none moved = .ok ({ origin := ⟨100, 0, 0⟩, size := (2, 2, 1), len := (40, 60, 110) }, []) := by decide +kernel

/-- **C149 fails.**  The axes are taken for points. -/
theorem vector_axes_fail : ¬ VectorAxes Int := by
  intro h
  have := h geoA none moved _ _ _ _ _ _ _ moved_loaded moved_axes
  revert this
  decide

/-- **C149 for the grids at the origin.** -/
theorem vector_axes_partial [Add D] (hz : ∀ x : D, Num.zero + x = x) {g : Geo D} {name : Option Str} {f : File} {grid : Grid D} {rest : File}
    {u v w : Pt D} {n : Ijk} (h : Axes f ⟨Num.zero, Num.zero, Num.zero⟩ u v w n rest) (hr : initGrid g name f = .ok (grid, rest)) :
    grid.len = lengths g ⟨Num.zero, Num.zero, Num.zero⟩ (tip ⟨Num.zero, Num.zero, Num.zero⟩ u) (tip ⟨Num.zero, Num.zero, Num.zero⟩ v)
      (tip ⟨Num.zero, Num.zero, Num.zero⟩ w) n := by
  have e : initGrid g name f = .ok (_, rest) := grid_read.2 ⟨_, u, v, w, n, h, rfl⟩
  rw [e] at hr
  simp only [Res.ok.injEq, Prod.mk.injEq, and_true] at hr
  rw [← hr]
  simp only [tip, hz]

/-- The hypothesis of `vector_axes_partial` holds of integers, and the axes of `voFile` start from the origin. -/
example : (∀ x : Int, Num.zero + x = x) ∧ initGrid Voxet.geoZ none (Voxet.voFile.drop 4) = .ok ({ origin := ⟨0, 0, 0⟩, size := (2, 2, 1), len := (2, 1, 3) },
    [cs!"ASCII_DATA_FILE \"v@@\""]) := ⟨fun x => by change (0 : Int) + x = x; omega, by decide +kernel⟩

/-! ## Lines that are not read -/

/-- The size of a voxet is the one on the line with the word `AXIS_N`, wherever it is after the axes. -/
def SizeFound : Prop := ∀ (g : Geo Int) (name : Option Str) (f f4 rest : File) (l : Str) (o u v w : Pt Int) (n : Ijk), Frame f o u v w f4 →
  (∃ pre, f4 = pre ++ l :: rest ∧ ∀ x ∈ pre, (split x).head? ≠ some cs!"AXIS_N") → (split l).head? = some cs!"AXIS_N" → IsSize l n →
  ∃ grid, initGrid g name f = .ok (grid, rest) ∧ grid.size = n

/-- The names of the axes given before the size. -/
def namedFirst : File := [cs!"AXIS_O 0 0 0", cs!"AXIS_U 20 0 0", cs!"AXIS_V 0 20 0", cs!"AXIS_W 0 0 10", cs!"AXIS_NAME X Y Z", cs!"AXIS_N 2 2 1"]

/-- **C149 fails.**  `AXIS_NAME` is taken for `AXIS_N` and the file is refused. -/
theorem size_found_fails : ¬ SizeFound := by
  intro h
  have hf : Frame namedFirst (⟨0, 0, 0⟩ : Pt Int) ⟨20, 0, 0⟩ ⟨0, 20, 0⟩ ⟨0, 0, 10⟩ [cs!"AXIS_NAME X Y Z", cs!"AXIS_N 2 2 1"] :=
    ⟨_, _, _, ⟨cs!"AXIS_O 0 0 0", ⟨[], rfl, by decide, by simp⟩, cs!"AXIS_O", cs!"0", cs!"0", cs!"0", by decide +kernel⟩,
      ⟨cs!"AXIS_U 20 0 0", ⟨[], rfl, by decide, by simp⟩, cs!"AXIS_U", cs!"20", cs!"0", cs!"0", by decide +kernel⟩,
      ⟨cs!"AXIS_V 0 20 0", ⟨[], rfl, by decide, by simp⟩, cs!"AXIS_V", cs!"0", cs!"20", cs!"0", by decide +kernel⟩,
      ⟨cs!"AXIS_W 0 0 10", ⟨[], rfl, by decide, by simp⟩, cs!"AXIS_W", cs!"0", cs!"0", cs!"10", by decide +kernel⟩⟩
  obtain ⟨grid, hg, -⟩ := h geoA none namedFirst _ [] cs!"AXIS_N 2 2 1" _ _ _ _ (2, 2, 1) hf ⟨[cs!"AXIS_NAME X Y Z"], rfl, by decide +kernel⟩ (by decide +kernel)
    ⟨cs!"AXIS_N", cs!"2", cs!"2", cs!"1", [], by decide +kernel⟩
  have e : initGrid geoA none namedFirst = .throw := by decide +kernel
  rw [e] at hg
  simp at hg

/-- **C149 for the files without names of axes before the size.** -/
theorem size_found_partial {g : Geo D} {name : Option Str} {f f4 rest pre : File} {l : Str} {o u v w : Pt D} {n : Ijk} (hf : Frame f o u v w f4)
    (h4 : f4 = pre ++ l :: rest) (hpre : ∀ x ∈ pre, startsWith x cs!"AXIS_N" = false) (hl : startsWith l cs!"AXIS_N" = true) (hn : IsSize l n) :
    initGrid g name f = .ok ({ name := name, origin := o, size := n, len := lengths g o u v w n }, rest) :=
  grid_read.2 ⟨o, u, v, w, n, ⟨f4, l, hf, ⟨pre, h4, hl, hpre⟩, hn⟩, rfl⟩

/-! ## C150: depths -/

/-- The three parts of a `.vo` file before its data: the header, the coordinate system and the axes. -/
theorem head_parts {g : Geo D} {folder : Str} {f : File} {grid : Grid D} {path : Str} : loadHead g folder f = .ok (grid, path) ↔
    ∃ l f0 name f1 crs f2 f3 record, FirstWith cs!"GOCAD Voxet" f l f0 ∧ readHeader f0 = .ok (name, f1) ∧ readCrs f1 = .ok (crs, f2) ∧
      initGrid g name f2 = .ok (grid, f3) ∧ dataFile f3 = some record ∧ path = folder ++ stripCr record := by
  unfold loadHead
  cases hg : gotoKeyword? cs!"GOCAD Voxet" f with
  | none =>
    constructor
    · intro h; simp at h
    · rintro ⟨l, f0, _, _, _, _, _, _, h, -⟩
      have := goto_iff.2 h
      rw [gotoKeyword, hg] at this
      simp at this
  | some r =>
    obtain ⟨l, f0⟩ := r
    have hl : FirstWith cs!"GOCAD Voxet" f l f0 := goto_iff.1 (by rw [gotoKeyword, hg]; rfl)
    simp only [Res.bind_eq_ok, Res.pure_eq, Res.ok.injEq, Prod.mk.injEq]
    constructor
    · rintro ⟨⟨name, f1⟩, h1, ⟨crs, f2⟩, h2, ⟨grid', f3⟩, h3, record, h4, e1, e2⟩
      subst e1
      refine ⟨l, f0, name, f1, crs, f2, f3, record, hl, h1, h2, h3, ?_, e2.symm⟩
      cases hd : dataFile f3 with
      | none => rw [hd] at h4; simp at h4
      | some r => rw [hd] at h4; simpa using h4
    · rintro ⟨l', f0', name, f1, crs, f2, f3, record, h, h1, h2, h3, h4, e2⟩
      have e := goto_iff.2 h
      rw [gotoKeyword, hg] at e
      simp only [Res.ofParse_some, Res.ok.injEq, Prod.mk.injEq] at e
      obtain ⟨rfl, rfl⟩ := e
      exact ⟨⟨name, f1⟩, h1, ⟨crs, f2⟩, h2, ⟨grid, f3⟩, h3, record, by rw [h4]; rfl, rfl, e2.symm⟩

/-- In a coordinate system whose third axis points downwards, the third coordinate of the origin is a depth. -/
def DepthsRead (D : Type) [Num D] : Prop := ∀ (g : Geo D) (folder : Str) (f f0 f1 f2 rest : File) (grid : Grid D) (path l : Str) (name : Option Str) (crs : Crs)
  (o u v w : Pt D) (n : Ijk), loadHead g folder f = .ok (grid, path) → FirstWith cs!"GOCAD Voxet" f l f0 → readHeader f0 = .ok (name, f1) →
  readCrs f1 = .ok (crs, f2) → Axes f2 o u v w n rest → grid.origin.z = signed crs.zPos o.z

/-- What comes before the axes of the witness. -/
def depthHead : File := [cs!"GOCAD Voxet 1", cs!"HEADER {", cs!"}", cs!"GOCAD_ORIGINAL_COORDINATE_SYSTEM", cs!"NAME a", cs!"ZPOSITIVE Depth",
  cs!"END_ORIGINAL_COORDINATE_SYSTEM"]

/-- The axes of the witness. -/
def depthAxes : File := [cs!"AXIS_O 0 0 50", cs!"AXIS_U 20 0 50", cs!"AXIS_V 0 20 50", cs!"AXIS_W 0 0 60", cs!"AXIS_N 2 2 1", cs!"ASCII_DATA_FILE v"]

/-- **C150 fails.**  The coordinate system is read and forgotten: a voxet at the depth 50 is loaded at the elevation 50. -/
theorem depths_read_fail : ¬ DepthsRead Int := by
  intro h
  have ha : Axes depthAxes (⟨0, 0, 50⟩ : Pt Int) ⟨20, 0, 50⟩ ⟨0, 20, 50⟩ ⟨0, 0, 60⟩ (2, 2, 1) [cs!"ASCII_DATA_FILE v"] :=
    ⟨_, cs!"AXIS_N 2 2 1", ⟨_, _, _, ⟨cs!"AXIS_O 0 0 50", ⟨[], rfl, by decide, by simp⟩, cs!"AXIS_O", cs!"0", cs!"0", cs!"50", by decide +kernel⟩,
      ⟨cs!"AXIS_U 20 0 50", ⟨[], rfl, by decide, by simp⟩, cs!"AXIS_U", cs!"20", cs!"0", cs!"50", by decide +kernel⟩,
      ⟨cs!"AXIS_V 0 20 50", ⟨[], rfl, by decide, by simp⟩, cs!"AXIS_V", cs!"0", cs!"20", cs!"50", by decide +kernel⟩,
      ⟨cs!"AXIS_W 0 0 60", ⟨[], rfl, by decide, by simp⟩, cs!"AXIS_W", cs!"0", cs!"0", cs!"60", by decide +kernel⟩⟩,
      ⟨[], rfl, by decide, by simp⟩, cs!"AXIS_N", cs!"2", cs!"2", cs!"1", [], by decide +kernel⟩
  have := h geoA [] (depthHead ++ depthAxes) (depthHead.drop 1 ++ depthAxes) (depthHead.drop 3 ++ depthAxes) depthAxes _
    ⟨none, ⟨0, 0, 50⟩, (2, 2, 1), (10, 10, 10), []⟩ cs!"v" cs!"GOCAD Voxet 1" none ({ name := cs!"a", zPos := false } : Crs) _ _ _ _ _
    (by decide +kernel) ⟨[], rfl, by decide, by simp⟩ (by decide +kernel) (by decide +kernel) ha
  revert this
  decide

/-- **C150 for the coordinate systems whose third axis points upwards.**  Otherwise the coordinate is the one of the file, without the sign. -/
theorem depths_read_partial {g : Geo D} {folder : Str} {f f0 f1 f2 rest : File} {grid : Grid D} {path l : Str} {name : Option Str} {crs : Crs}
    {o u v w : Pt D} {n : Ijk} (h : loadHead g folder f = .ok (grid, path)) (h0 : FirstWith cs!"GOCAD Voxet" f l f0)
    (h1 : readHeader f0 = .ok (name, f1)) (h2 : readCrs f1 = .ok (crs, f2)) (ha : Axes f2 o u v w n rest) :
    grid = { name := name, origin := o, size := n, len := lengths g o u v w n } ∧ (crs.zPos = true → grid.origin.z = signed crs.zPos o.z) := by
  obtain ⟨l', f0', name', f1', crs', f2', f3, record, h0', h1', h2', h3, -, -⟩ := head_parts.1 h
  have e := goto_iff.2 h0
  rw [goto_iff.2 h0'] at e
  simp only [Res.ok.injEq, Prod.mk.injEq] at e
  obtain ⟨rfl, rfl⟩ := e
  rw [h1] at h1'
  simp only [Res.ok.injEq, Prod.mk.injEq] at h1'
  obtain ⟨rfl, rfl⟩ := h1'
  rw [h2] at h2'
  simp only [Res.ok.injEq, Prod.mk.injEq] at h2'
  obtain ⟨rfl, rfl⟩ := h2'
  have e : initGrid g name f2 = .ok (_, rest) := grid_read.2 ⟨o, u, v, w, n, ha, rfl⟩
  rw [e] at h3
  simp only [Res.ok.injEq, Prod.mk.injEq] at h3
  refine ⟨h3.1.symm, fun hz => ?_⟩
  rw [← h3.1, hz]
  rfl

end Verif.Props.VoxetGrid
