import Mathlib.Tactic.Ring
import Mathlib.Tactic.Linarith
import Mathlib.Tactic.Positivity
import Mathlib.Tactic.NormNum
import Mathlib.Tactic.FieldSimp
import Verif.Model.MlTolerance

/-!
# C197: which points are one in `.ml` files

Two vertices of surfaces of a `.ml` file are one vertex of the model when their points are so near that only rounding can explain the difference.  How near is
said in terms of the size of the model, so that the unit and the origin of the coordinates do not matter.
-/

namespace Verif.Props.MlTolerance

open Verif Verif.GocadMesh Verif.MlLines Verif.MlWhole Verif.MlTolerance Res

/-! ## Statements -/

/-- The three coordinates of a point. -/
def axes : List (Pt ℚ → ℚ) := [Pt.x, Pt.y, Pt.z]

/-- A point moved: another unit, `k` times smaller, and another origin. -/
def move (k : ℚ) (t p : Pt ℚ) : Pt ℚ := ⟨k * p.x + t.x, k * p.y + t.y, k * p.z + t.z⟩

/-- All the points have the same coordinate along some axis: a map, or a section along an axis. -/
def Flat (points : List (Pt ℚ)) : Prop := ∃ f ∈ axes, ∀ p ∈ points, ∀ q ∈ points, f p = f q

/-- The points are one when they are nearer than a ten-millionth of the size of the model, its size being the greatest distance between two of its points
along an axis. -/
def Tolerant (points : List (Pt ℚ)) : Prop :=
  ∀ p ∈ points, ∀ q ∈ points,
    (∃ f ∈ axes, ∃ a ∈ points, ∃ b ∈ points, dist2 p q * 10000000 ^ 2 ≤ (f a - f b) ^ 2) → close points p q = true

/-- The property: every model is read with that tolerance. -/
def AllTolerant : Prop := ∀ points, Tolerant points

/-! ## The bounding box -/

theorem foldl_bounds (xs : List ℚ) : ∀ lo hi : ℚ,
    let b := xs.foldl (fun b y => (min b.1 y, max b.2 y)) (lo, hi)
    (b.1 = lo ∨ b.1 ∈ xs) ∧ (b.2 = hi ∨ b.2 ∈ xs) ∧ b.1 ≤ lo ∧ hi ≤ b.2 ∧ ∀ y ∈ xs, b.1 ≤ y ∧ y ≤ b.2 := by
  induction xs with
  | nil => intro lo hi; simp
  | cons x xs ih =>
    intro lo hi
    have h := ih (min lo x) (max hi x)
    simp only [List.foldl_cons] at h ⊢
    obtain ⟨h1, h2, h3, h4, h5⟩ := h
    refine ⟨?_, ?_, h3.trans (min_le_left _ _), (le_max_left _ _).trans h4, ?_⟩
    · rcases h1 with h | h
      · rcases min_choice lo x with m | m
        · exact .inl (h.trans m)
        · exact .inr (by rw [h, m]; exact List.mem_cons_self)
      · exact .inr (List.mem_cons_of_mem _ h)
    · rcases h2 with h | h
      · rcases max_choice hi x with m | m
        · exact .inl (h.trans m)
        · exact .inr (by rw [h, m]; exact List.mem_cons_self)
      · exact .inr (List.mem_cons_of_mem _ h)
    · intro y hy
      rcases List.mem_cons.1 hy with rfl | hy
      · exact ⟨h3.trans (min_le_right _ _), (le_max_right _ _).trans h4⟩
      · exact h5 y hy

/-- A side of the box is the distance of two of the numbers, and no two are farther apart. -/
theorem side_spec (x : ℚ) (xs : List ℚ) :
    (∃ a ∈ x :: xs, ∃ b ∈ x :: xs, side x xs = a - b) ∧ ∀ a ∈ x :: xs, ∀ b ∈ x :: xs, a - b ≤ side x xs := by
  obtain ⟨h1, h2, h3, h4, h5⟩ := foldl_bounds xs x x
  have hb : ∀ y ∈ x :: xs, (bounds x xs).1 ≤ y ∧ y ≤ (bounds x xs).2 := by
    intro y hy
    rcases List.mem_cons.1 hy with rfl | hy
    · exact ⟨h3, h4⟩
    · exact h5 y hy
  refine ⟨⟨(bounds x xs).2, ?_, (bounds x xs).1, ?_, rfl⟩, ?_⟩
  · rcases h2 with h | h
    · exact List.mem_cons.2 (.inl h)
    · exact List.mem_cons.2 (.inr h)
  · rcases h1 with h | h
    · exact List.mem_cons.2 (.inl h)
    · exact List.mem_cons.2 (.inr h)
  · intro a ha b hb'
    have := (hb a ha).2
    have := (hb b hb').1
    unfold side
    linarith

theorem side_nonneg (x : ℚ) (xs : List ℚ) : 0 ≤ side x xs := by
  have := (side_spec x xs).2 x List.mem_cons_self x List.mem_cons_self
  linarith

theorem dist2_nonneg (p q : Pt ℚ) : 0 ≤ dist2 p q := by
  unfold dist2
  have := mul_self_nonneg (p.x - q.x)
  have := mul_self_nonneg (p.y - q.y)
  have := mul_self_nonneg (p.z - q.z)
  linarith

/-- To be within a ten-millionth of a side is to be within a ten-millionth of the distance of some two points along it. -/
theorem side_iff (f : Pt ℚ → ℚ) (p0 : Pt ℚ) (ps : List (Pt ℚ)) (d : ℚ) :
    d * 10000000 ^ 2 ≤ side (f p0) (ps.map f) ^ 2 ↔ ∃ a ∈ p0 :: ps, ∃ b ∈ p0 :: ps, d * 10000000 ^ 2 ≤ (f a - f b) ^ 2 := by
  have h := side_spec (f p0) (ps.map f)
  have e : f p0 :: ps.map f = (p0 :: ps).map f := rfl
  rw [e] at h
  constructor
  · intro hd
    obtain ⟨⟨a, ha, b, hb, hs⟩, _⟩ := h
    obtain ⟨a, ha', rfl⟩ := List.mem_map.1 ha
    obtain ⟨b, hb', rfl⟩ := List.mem_map.1 hb
    exact ⟨a, ha', b, hb', by rw [hs] at hd; exact hd⟩
  · rintro ⟨a, ha, b, hb, hd⟩
    have h1 := h.2 (f a) (List.mem_map_of_mem ha) (f b) (List.mem_map_of_mem hb)
    have h2 := h.2 (f b) (List.mem_map_of_mem hb) (f a) (List.mem_map_of_mem ha)
    refine hd.trans (sq_le_sq' ?_ h1)
    linarith

theorem scaled (m d : ℚ) : d ≤ 1 / 10000000 * m * (1 / 10000000 * m) ↔ d * 10000000 ^ 2 ≤ m ^ 2 := by
  have e : 1 / 10000000 * m * (1 / 10000000 * m) * 10000000 ^ 2 = m ^ 2 := by ring
  rw [← e]
  exact (mul_le_mul_iff_left₀ (by norm_num)).symm

theorem le_min_sq {a b d : ℚ} (ha : 0 ≤ a) (hb : 0 ≤ b) : d ≤ min a b ^ 2 ↔ d ≤ a ^ 2 ∧ d ≤ b ^ 2 := by
  constructor
  · intro h
    have h0 : 0 ≤ min a b := le_min ha hb
    exact ⟨h.trans (pow_le_pow_left₀ h0 (min_le_left _ _) 2), h.trans (pow_le_pow_left₀ h0 (min_le_right _ _) 2)⟩
  · rintro ⟨h1, h2⟩
    rcases min_choice a b with m | m <;> rw [m] <;> assumption

/-- Which points are one: those no farther apart than a ten-millionth of the distance between some two points of the model, along each axis. -/
theorem close_iff (points : List (Pt ℚ)) (p q : Pt ℚ) :
    close points p q = true ↔ ∀ f ∈ axes, ∃ a ∈ points, ∃ b ∈ points, dist2 p q * 10000000 ^ 2 ≤ (f a - f b) ^ 2 := by
  cases points with
  | nil =>
    refine ⟨fun h => absurd h (by simp [close, tolerance]), fun h => ?_⟩
    obtain ⟨a, ha, _⟩ := h Pt.x List.mem_cons_self
    exact absurd ha List.not_mem_nil
  | cons p0 ps =>
    have n0 := side_nonneg p0.x (ps.map Pt.x)
    have n1 := side_nonneg p0.y (ps.map Pt.y)
    have n2 := side_nonneg p0.z (ps.map Pt.z)
    have n3 := le_min n1 n2
    have e0 := side_iff Pt.x p0 ps (dist2 p q)
    have e1 := side_iff Pt.y p0 ps (dist2 p q)
    have e2 := side_iff Pt.z p0 ps (dist2 p q)
    have pos : 0 ≤ 1 / 10000000 * min (side p0.x (ps.map Pt.x)) (min (side p0.y (ps.map Pt.y)) (side p0.z (ps.map Pt.z))) :=
      mul_nonneg (by norm_num) (le_min n0 n3)
    simp only [close, tolerance, within, decide_eq_true_eq]
    rw [and_iff_right pos, scaled, le_min_sq n0 n3, le_min_sq n1 n2, e0, e1, e2]
    simp [axes]

/-! ## What follows -/

/-- The property, when the three sides of the box are the same. -/
theorem tolerant_partial (points : List (Pt ℚ)) (h : ∀ f ∈ axes, ∀ g ∈ axes, ∀ a ∈ points, ∀ b ∈ points, ∃ c ∈ points, ∃ d ∈ points,
    (f a - f b) ^ 2 ≤ (g c - g d) ^ 2) : Tolerant points := by
  intro p _ q _ ⟨f, hf, a, ha, b, hb, hd⟩
  rw [close_iff]
  intro g hg
  obtain ⟨c, hc, d, hd', hcd⟩ := h f hf g hg a ha b hb
  exact ⟨c, hc, d, hd', hd.trans hcd⟩

/-- Points farther apart than a ten-millionth of the size of the model are never one. -/
theorem never_far (points : List (Pt ℚ)) (p q : Pt ℚ) (h : close points p q = true) :
    ∃ f ∈ axes, ∃ a ∈ points, ∃ b ∈ points, dist2 p q * 10000000 ^ 2 ≤ (f a - f b) ^ 2 :=
  ⟨Pt.x, List.mem_cons_self, (close_iff points p q).1 h Pt.x List.mem_cons_self⟩

theorem axis_move {f : Pt ℚ → ℚ} (hf : f ∈ axes) (k : ℚ) (t a b : Pt ℚ) : f (move k t a) - f (move k t b) = k * (f a - f b) := by
  simp only [axes, List.mem_cons, List.not_mem_nil, or_false] at hf
  rcases hf with rfl | rfl | rfl <;> simp only [move] <;> ring

theorem dist2_move (k : ℚ) (t p q : Pt ℚ) : dist2 (move k t p) (move k t q) = k ^ 2 * dist2 p q := by
  simp only [dist2, move]
  ring

/-- The unit, its sign and the origin of the coordinates do not matter. -/
theorem close_moved {k : ℚ} (hk : k ≠ 0) (t : Pt ℚ) (points : List (Pt ℚ)) (p q : Pt ℚ) :
    close (points.map (move k t)) (move k t p) (move k t q) = close points p q := by
  have k2 : 0 < k ^ 2 := by positivity
  rw [Bool.eq_iff_iff, close_iff, close_iff]
  refine forall_congr' fun f => forall_congr' fun hf => ?_
  have key : ∀ a b, dist2 (move k t p) (move k t q) * 10000000 ^ 2 ≤ (f (move k t a) - f (move k t b)) ^ 2 ↔
      dist2 p q * 10000000 ^ 2 ≤ (f a - f b) ^ 2 := by
    intro a b
    rw [axis_move hf, dist2_move, mul_pow, mul_assoc]
    exact mul_le_mul_iff_right₀ k2
  constructor
  · rintro ⟨a, ha, b, hb, h⟩
    obtain ⟨a, ha', rfl⟩ := List.mem_map.1 ha
    obtain ⟨b, hb', rfl⟩ := List.mem_map.1 hb
    exact ⟨a, ha', b, hb', (key a b).1 h⟩
  · rintro ⟨a, ha, b, hb, h⟩
    exact ⟨_, List.mem_map_of_mem ha, _, List.mem_map_of_mem hb, (key a b).2 h⟩

/-- Neither do the order and the repetition of the points. -/
theorem close_same {ps qs : List (Pt ℚ)} (h : ∀ p, p ∈ ps ↔ p ∈ qs) (p q : Pt ℚ) : close ps p q = close qs p q := by
  rw [Bool.eq_iff_iff, close_iff, close_iff]
  simp only [h]

theorem close_symm (points : List (Pt ℚ)) (p q : Pt ℚ) : close points p q = close points q p := by
  have e : dist2 p q = dist2 q p := by unfold dist2; ring
  rw [Bool.eq_iff_iff, close_iff, close_iff, e]

theorem dist2_self (p : Pt ℚ) : dist2 p p = 0 := by simp [dist2]

/-- A point is one with itself. -/
theorem close_refl {points : List (Pt ℚ)} (h : points ≠ []) (p : Pt ℚ) : close points p p = true := by
  rw [close_iff]
  intro f _
  obtain ⟨a, ha⟩ := List.exists_mem_of_ne_nil _ h
  exact ⟨a, ha, a, ha, by simp [dist2_self]⟩

theorem dist2_zero {p q : Pt ℚ} (h : dist2 p q = 0) : p = q := by
  unfold dist2 at h
  have h1 := mul_self_nonneg (p.x - q.x)
  have h2 := mul_self_nonneg (p.y - q.y)
  have h3 := mul_self_nonneg (p.z - q.z)
  have z : ∀ a b : ℚ, (a - b) * (a - b) = 0 → a = b := fun a b h => sub_eq_zero.1 (mul_self_eq_zero.1 h)
  cases p; cases q
  simp only [Pt.mk.injEq]
  exact ⟨z _ _ (by linarith), z _ _ (by linarith), z _ _ (by linarith)⟩

/-- Nothing is tolerated in a flat model: only equal points are one. -/
theorem flat_exact {points : List (Pt ℚ)} (hf : Flat points) (hn : points ≠ []) (p q : Pt ℚ) : close points p q = true ↔ p = q := by
  constructor
  · intro h
    obtain ⟨f, hf, hp⟩ := hf
    obtain ⟨a, ha, b, hb, hd⟩ := (close_iff points p q).1 h f hf
    rw [hp a ha b hb] at hd
    have := dist2_nonneg p q
    exact dist2_zero (by norm_num at hd; linarith)
  · rintro rfl
    exact close_refl hn p

/-- A map of 1000 by 1000 at elevation 0, one of whose points is there twice, a billionth apart. -/
def map : List (Pt ℚ) := [⟨0, 0, 0⟩, ⟨1000, 0, 0⟩, ⟨0, 1000, 0⟩, ⟨1000, 1 / 1000000000, 0⟩]

/-- The two points are not one: a test on one model. -/
theorem map_apart : close map ⟨1000, 0, 0⟩ ⟨1000, 1 / 1000000000, 0⟩ = false := by decide +kernel

/-- The property is false. -/
theorem not_allTolerant : ¬AllTolerant := by
  intro h
  have := h map ⟨1000, 0, 0⟩ (by decide +kernel) ⟨1000, 1 / 1000000000, 0⟩ (by decide +kernel)
    ⟨Pt.x, by simp [axes], ⟨1000, 0, 0⟩, by decide +kernel, ⟨0, 0, 0⟩, by decide +kernel, by norm_num [dist2]⟩
  rw [map_apart] at this
  exact absurd this (by decide)

/-- To be one is not transitive: tests on one model, a cube of side 10000000 with three points 3/4 apart. -/
theorem not_transitive :
    let points : List (Pt ℚ) := [⟨0, 0, 0⟩, ⟨3 / 4, 0, 0⟩, ⟨3 / 2, 0, 0⟩, ⟨10000000, 10000000, 10000000⟩]
    close points ⟨0, 0, 0⟩ ⟨3 / 4, 0, 0⟩ = true ∧ close points ⟨3 / 4, 0, 0⟩ ⟨3 / 2, 0, 0⟩ = true ∧ close points ⟨0, 0, 0⟩ ⟨3 / 2, 0, 0⟩ = false := by
  refine ⟨?_, ?_, ?_⟩ <;> decide +kernel

/-! ## The lines and the unique vertices made -/

/-- A surface, with points of another kind. -/
def mapSurface {P Q : Type} (g : P → Q) (s : USurface P) : USurface Q :=
  { fwd := s.fwd, back := s.back, point := fun v => g (s.point v), corner := s.corner, nb := s.nb }

/-- A line, with points of another kind. -/
def mapLine {P Q : Type} (g : P → Q) (l : Line P) : Line Q := ⟨l.corner0, l.corner1, l.points.map g⟩

/-- What is built, with points of another kind. -/
def mapBuilt {P Q : Type} (g : P → Q) (b : Built P) : Built Q := ⟨b.lines.map (mapLine g), b.vertices, b.surfaces⟩

variable {P Q : Type} {g : P → Q} {c : P → P → Bool} {c' : Q → Q → Bool}

theorem linesEqual_map (h : ∀ p q, c' (g p) (g q) = c p q) : ∀ ps qs : List P, linesEqual c' (ps.map g) (qs.map g) = linesEqual c ps qs
  | [], [] => rfl
  | [], _ :: _ => rfl
  | _ :: _, [] => rfl
  | p :: ps, q :: qs => by
    simp only [List.map_cons, linesEqual, h, linesEqual_map h ps qs]

theorem findIdx?_map' {α β : Type} (f : α → β) (p : β → Bool) (p' : α → Bool) (h : ∀ a, p (f a) = p' a) (l : List α) :
    (l.map f).findIdx? p = l.findIdx? p' := by
  rw [List.findIdx?_map]
  congr 1
  funext a
  exact h a

/-- The data of a line, with points of another kind. -/
def mapData (g : P → Q) (d : LineData P) : LineData Q := ⟨d.corner0, d.corner1, d.indices, d.points.map g⟩

theorem findOrCreate_map (h : ∀ p q, c' (g p) (g q) = c p q) (lines : List (Line P)) (d : LineData P) :
    findOrCreate c' (lines.map (mapLine g)) (mapData g d) =
      ((findOrCreate c lines d).1.map (mapLine g), (findOrCreate c lines d).2) := by
  have e1 := findIdx?_map' (mapLine g)
    (fun l => decide (l.corner0 = d.corner0 ∧ l.corner1 = d.corner1) && linesEqual c' l.points (d.points.map g))
    (fun l => decide (l.corner0 = d.corner0 ∧ l.corner1 = d.corner1) && linesEqual c l.points d.points)
    (fun l => by simp only [mapLine, linesEqual_map h]; rfl) lines
  have e2 := findIdx?_map' (mapLine g)
    (fun l => decide (l.corner0 = d.corner1 ∧ l.corner1 = d.corner0) && linesEqual c' l.points (d.points.map g).reverse)
    (fun l => decide (l.corner0 = d.corner1 ∧ l.corner1 = d.corner0) && linesEqual c l.points d.points.reverse)
    (fun l => by simp only [mapLine, ← List.map_reverse, linesEqual_map h]; rfl) lines
  unfold findOrCreate
  simp only [mapData]
  erw [e1, e2]
  split
  · rfl
  · split
    · rfl
    · simp [mapLine]

theorem follow_map (s : USurface P) (b : LsoLines.Border) : ∀ n i, follow (mapSurface g s).toMSurface b n i = follow s.toMSurface b n i
  | 0, _ => rfl
  | n + 1, i => by
    simp only [follow, follow_map s b n]
    rfl

theorem computeLine_map (s : USurface P) (start : Nat × Nat) :
    computeLine (mapSurface g s).toMSurface start = mapData g <$> computeLine s.toMSurface start := by
  have hf : followStart (mapSurface g s).toMSurface start = followStart s.toMSurface start := by
    simp only [followStart, follow_map]
    rfl
  simp only [computeLine, hf]
  show (match s.corner start.1 with
    | none => _
    | some c0 => _) = _
  cases s.corner start.1 with
  | none => rfl
  | some c0 =>
    cases followStart s.toMSurface start with
    | ok r =>
      simp only [ok_bind, endLine]
      show (match s.corner ((start.1 :: r).getLastD 0) with
        | none => _
        | some c1 => _) = _
      cases s.corner ((start.1 :: r).getLastD 0) with
      | none => rfl
      | some c1 =>
        show Res.ok _ = Res.ok _
        simp [mapData, mapSurface]
    | throw => rfl
    | ub => rfl
    | diverge => rfl

theorem index_map {α β : Type} (f : α → β) (l : List α) (i : Nat) : Res.index (l.map f) i = f <$> Res.index l i := by
  simp only [Res.index, List.getElem?_map]
  cases l[i]? <;> rfl

/-- The state of `create_lines`, with points of another kind. -/
def mapState (g : P → Q) (st : List (Line P) × List Piece) : List (Line Q) × List Piece := (st.1.map (mapLine g), st.2)

theorem lineStep_map (h : ∀ p q, c' (g p) (g q) = c p q) (surfaces : List (USurface P)) (st : List (Line P) × List Piece) (x : Nat × Nat × Nat) :
    lineStep c' ((surfaces.map (mapSurface g)).map USurface.toMSurface) (mapState g st) x =
      mapState g <$> lineStep c (surfaces.map USurface.toMSurface) st x := by
  simp only [lineStep, index_map]
  cases Res.index surfaces x.1 with
  | ok s =>
    simp only [map_ok, ok_bind, computeLine_map]
    cases computeLine s.toMSurface x.2 with
    | ok d => simp only [map_ok, ok_bind, pure_eq, mapState, findOrCreate_map h]
    | throw => rfl
    | ub => rfl
    | diverge => rfl
  | throw => rfl
  | ub => rfl
  | diverge => rfl

theorem createLines_map (h : ∀ p q, c' (g p) (g q) = c p q) (surfaces : List (USurface P)) (starts : List (Nat × Nat × Nat)) :
    createLines c' ((surfaces.map (mapSurface g)).map USurface.toMSurface) starts =
      mapState g <$> createLines c (surfaces.map USurface.toMSurface) starts := by
  have key : ∀ (starts : List (Nat × Nat × Nat)) (st : List (Line P) × List Piece),
      Res.foldM' (lineStep c' ((surfaces.map (mapSurface g)).map USurface.toMSurface)) (mapState g st) starts =
        mapState g <$> Res.foldM' (lineStep c (surfaces.map USurface.toMSurface)) st starts := by
    intro starts
    induction starts with
    | nil => intro st; rfl
    | cons x xs ih =>
      intro st
      simp only [Res.foldM'_cons, lineStep_map h]
      cases lineStep c (surfaces.map USurface.toMSurface) st x with
      | ok a => simp only [map_ok, ok_bind, ih]
      | throw => rfl
      | ub => rfl
      | diverge => rfl
  exact key starts ([], [])

theorem lineVertices_map (lines : List (Line P)) : ∀ fresh, lineVertices fresh (lines.map (mapLine g)) = lineVertices fresh lines := by
  induction lines with
  | nil => intro; rfl
  | cons l ls ih =>
    intro fresh
    simp only [List.map_cons, lineVertices, ih, mapLine, List.length_map]

theorem nbUniques_map (fresh : Nat) (lines : List (Line P)) : nbUniques fresh (lines.map (mapLine g)) = nbUniques fresh lines := by
  simp only [nbUniques, List.map_map]
  congr 2
  exact List.map_congr_left fun l _ => by simp [mapLine]

theorem searchPoint_map (lines : List (Line P)) (vertices : List (List Nat)) (u : Nat) :
    searchPoint (lines.map (mapLine g)) vertices u = g <$> searchPoint lines vertices u := by
  simp only [searchPoint]
  cases vertices.findIdx? (·.contains u) with
  | none => rfl
  | some k =>
    simp only [index_map]
    cases Res.index lines k with
    | ok l =>
      simp only [map_ok, ok_bind]
      cases Res.index vertices k with
      | ok vs => simp only [ok_bind, mapLine, index_map]
      | throw => rfl
      | ub => rfl
      | diverge => rfl
    | throw => rfl
    | ub => rfl
    | diverge => rfl

theorem searchPoints_map (lines : List (Line P)) (vertices : List (List Nat)) (nb : Nat) :
    searchPoints (lines.map (mapLine g)) vertices nb = List.map g <$> searchPoints lines vertices nb := by
  simp only [searchPoints]
  induction List.range nb with
  | nil => rfl
  | cons u us ih =>
    simp only [Res.mapM'_cons, searchPoint_map, ih]
    cases searchPoint lines vertices u with
    | ok a =>
      simp only [map_ok, ok_bind]
      cases Res.mapM' (searchPoint lines vertices) us <;> rfl
    | throw => rfl
    | ub => rfl
    | diverge => rfl

theorem neighbours_map (h : ∀ p q, c' (g p) (g q) = c p q) (search : List P) (p : P) :
    neighbours c' (search.map g) (g p) = neighbours c search p := by
  simp only [neighbours, List.length_map, List.getElem?_map]
  congr 1
  funext u
  cases search[u]? with
  | none => rfl
  | some q => exact h q p

theorem missingAll_map (h : ∀ p q, c' (g p) (g q) = c p q) (search : List P) (vertices : List (List Nat)) (pieces : List Piece)
    (surfaces : List (USurface P)) : ∀ number fresh,
      missingAll c' (search.map g) vertices pieces number fresh (surfaces.map (mapSurface g)) =
        missingAll c search vertices pieces number fresh surfaces := by
  induction surfaces with
  | nil => intros; rfl
  | cons s ss ih =>
    intro number fresh
    have hn : (fun v => neighbours c' (search.map g) ((mapSurface g s).point v)) = fun v => neighbours c search (s.point v) := by
      funext v
      exact neighbours_map h search (s.point v)
    simp only [List.map_cons, missingAll, ih, hn]
    rfl

/-- What is built depends on the points only by which are one. -/
theorem buildLines_map (h : ∀ p q, c' (g p) (g q) = c p q) (nb : Nat) (surfaces : List (USurface P)) (starts : List (Nat × Nat × Nat)) :
    buildLines c' nb (surfaces.map (mapSurface g)) starts = mapBuilt g <$> buildLines c nb surfaces starts := by
  simp only [buildLines, createLines_map h]
  cases createLines c (surfaces.map USurface.toMSurface) starts with
  | ok r =>
    simp only [map_ok, ok_bind, mapState, lineVertices_map, nbUniques_map, searchPoints_map]
    cases searchPoints r.1 (lineVertices nb r.1) (nbUniques nb r.1) with
    | ok search =>
      simp only [map_ok, ok_bind, missingAll_map h]
      cases missingAll c search (lineVertices nb r.1) r.2 0 (nbUniques nb r.1) surfaces <;> rfl
    | throw => rfl
    | ub => rfl
    | diverge => rfl
  | throw => rfl
  | ub => rfl
  | diverge => rfl

/-- The surfaces of a model moved have the same lines, the same unique vertices and the same internal lines, at the points moved. -/
theorem built_moved {k : ℚ} (hk : k ≠ 0) (t : Pt ℚ) (points : List (Pt ℚ)) (nb : Nat) (surfaces : List (USurface (Option (Pt ℚ))))
    (starts : List (Nat × Nat × Nat)) :
    buildLines (closeAt (close (points.map (move k t)))) nb (surfaces.map (mapSurface (Option.map (move k t)))) starts =
      mapBuilt (Option.map (move k t)) <$> buildLines (closeAt (close points)) nb surfaces starts := by
  apply buildLines_map
  intro p q
  cases p <;> cases q <;> first | rfl | exact close_moved hk t points _ _

/-- A border of a flat model written by its two surfaces with other roundings makes two lines, as no line has its points. -/
theorem flat_new_line {points : List (Pt ℚ)} (hf : Flat points) (hn : points ≠ []) (lines : List (Line (Pt ℚ))) (d : LineData (Pt ℚ))
    (h : ∀ l ∈ lines, l.points ≠ d.points ∧ l.points ≠ d.points.reverse) :
    (findOrCreate (close points) lines d).1 = lines ++ [⟨d.corner0, d.corner1, d.points⟩] := by
  have eq : ∀ ps qs, linesEqual (close points) ps qs = true → ps = qs := by
    intro ps
    induction ps with
    | nil => intro qs; cases qs <;> simp [linesEqual]
    | cons p ps ih =>
      intro qs
      cases qs with
      | nil => simp [linesEqual]
      | cons q qs =>
        intro e
        simp only [linesEqual, Bool.and_eq_true] at e
        rw [(flat_exact hf hn p q).1 e.1, ih qs e.2]
  have n1 : (lines.findIdx? fun l => decide (l.corner0 = d.corner0 ∧ l.corner1 = d.corner1) && linesEqual (close points) l.points d.points) = none := by
    rw [List.findIdx?_eq_none_iff]
    intro l hl
    rw [Bool.and_eq_false_iff]
    exact .inr (Bool.eq_false_iff.2 fun e => (h l hl).1 (eq _ _ e))
  have n2 : (lines.findIdx? fun l => decide (l.corner0 = d.corner1 ∧ l.corner1 = d.corner0) &&
      linesEqual (close points) l.points d.points.reverse) = none := by
    rw [List.findIdx?_eq_none_iff]
    intro l hl
    rw [Bool.and_eq_false_iff]
    exact .inr (Bool.eq_false_iff.2 fun e => (h l hl).2 (eq _ _ e))
  simp only [findOrCreate, n1, n2]

/-! ## Not vacuous -/

/-- A cube of side 1000 with a corner there twice, a billionth apart. -/
def cube : List (Pt ℚ) := [⟨0, 0, 0⟩, ⟨1000, 0, 0⟩, ⟨0, 1000, 0⟩, ⟨0, 0, 1000⟩, ⟨1000, 1 / 1000000000, 0⟩]

/-- Tests on one model: the two points of the corner are one, and the other corners are not. -/
example : close cube ⟨1000, 0, 0⟩ ⟨1000, 1 / 1000000000, 0⟩ = true ∧ close cube ⟨1000, 0, 0⟩ ⟨1000, 1, 0⟩ = false ∧
    close cube ⟨1000, 0, 0⟩ ⟨0, 0, 0⟩ = false := by
  refine ⟨?_, ?_, ?_⟩ <;> decide +kernel

/-- The map is flat. -/
example : Flat map ∧ map ≠ [] := by
  refine ⟨⟨Pt.z, by simp [axes], ?_⟩, by simp [map]⟩
  simp only [map]
  decide +kernel

/-- A test: the border of the map from the first point to the second, and the same one rounded otherwise. -/
example : (findOrCreate (close map) [⟨0, 1, [⟨0, 0, 0⟩, ⟨1000, 0, 0⟩]⟩] ⟨0, 1, [0, 1], [⟨0, 0, 0⟩, ⟨1000, 1 / 1000000000, 0⟩]⟩).1.length = 2 ∧
    (findOrCreate (close cube) [⟨0, 1, [⟨0, 0, 0⟩, ⟨1000, 0, 0⟩]⟩] ⟨0, 1, [0, 1], [⟨0, 0, 0⟩, ⟨1000, 1 / 1000000000, 0⟩]⟩).1.length = 1 := by
  refine ⟨?_, ?_⟩ <;> decide +kernel

end Verif.Props.MlTolerance
