import Verif.Model.Dem
import Verif.Props.GrdeclCells

/-!
# C28, C29 and C53: elevation rasters
-/

namespace Verif.Props.Dem

open Verif Verif.Dem Verif.Props.GrdeclCells

variable {D : Type}

/-! ## Specification -/

/-- The pixel number `n` (row after row) has an elevation. -/
def Valid (r : Raster D) (n : Nat) : Bool :=
  match r.elevation[n]? with
  | some e => !r.noData e
  | none => false

/-- The point of the pixel of row `i` and column `j`. -/
def pixelPoint (r : Raster D) (ij : Nat × Nat) : Option (Pt D) :=
  (r.elevation[ij.1 * r.width + ij.2]?).map fun e => ⟨(r.pos ij.1 ij.2).1, (r.pos ij.1 ij.2).2, e⟩

/-- Number of the pixel. -/
def num (r : Raster D) (ij : Nat × Nat) : Nat := ij.1 * r.width + ij.2

/-- The number of valid pixels before the pixel number `n`. -/
def rank (r : Raster D) (n : Nat) : Nat := ((List.range n).filter (Valid r)).length

/-- The four pixels of a square, from its first corner. -/
def corners4 (ij : Nat × Nat) : List (Nat × Nat) := [(ij.1, ij.2), (ij.1, ij.2 + 1), (ij.1 + 1, ij.2), (ij.1 + 1, ij.2 + 1)]

/-- The first corners of the squares of valid pixels. -/
def squares (r : Raster D) : List (Nat × Nat) :=
  (pixels (r.height - 1) (r.width - 1)).filter fun ij => (corners4 ij).all fun p => Valid r (num r p)

/-! ## Pixels -/

theorem pixels_num (h w : Nat) : (pixels h w).map (fun ij => ij.1 * w + ij.2) = List.range (h * w) := by
  induction h with
  | zero => simp [pixels]
  | succ h ih =>
    have e : pixels (h + 1) w = pixels h w ++ (List.range w).map fun j => (h, j) := by
      simp [pixels, List.range_succ]
    rw [e, List.map_append, ih, Nat.succ_mul, List.range_add]
    simp

theorem mem_pixels {h w : Nat} {ij : Nat × Nat} : ij ∈ pixels h w ↔ ij.1 < h ∧ ij.2 < w := by
  obtain ⟨i, j⟩ := ij
  simp only [pixels, List.mem_flatMap, List.mem_map, List.mem_range, Prod.mk.injEq]
  constructor
  · rintro ⟨a, ha, b, hb, rfl, rfl⟩; exact ⟨ha, hb⟩
  · rintro ⟨h1, h2⟩; exact ⟨i, h1, j, h2, rfl, rfl⟩

theorem num_lt {h w i j : Nat} (hi : i < h) (hj : j < w) : i * w + j < h * w := by
  have := Nat.mul_le_mul_right w (show i + 1 ≤ h from hi)
  rw [Nat.succ_mul] at this
  omega

theorem rank_succ (r : Raster D) (n : Nat) : rank r (n + 1) = rank r n + if Valid r n then 1 else 0 := by
  unfold rank
  rw [List.range_succ, List.filter_append, List.length_append]
  cases h : Valid r n <;> simp [List.filter_cons, h]

theorem rank_le (r : Raster D) (n : Nat) : rank r n ≤ n := by
  unfold rank
  exact (List.length_filter_le _ _).trans (by simp)

/-! ## Vertices -/

/-- The array `vertices` after the pixels before `n`. -/
def table (r : Raster D) (n size : Nat) : List Nat :=
  (List.range size).map fun v => if v < n ∧ Valid r v then rank r v else NO_ID

theorem table_set {r : Raster D} {n size : Nat} (hn : n < size) (hv : Valid r n = true) :
    (table r n size).set n (rank r n) = table r (n + 1) size := by
  apply List.ext_getElem?
  intro i
  unfold table
  rw [List.getElem?_set]
  by_cases hi : n = i
  · subst hi
    simp [hn, hv]
  · rw [if_neg hi]
    by_cases hl : i < size
    · simp only [List.getElem?_map, List.getElem?_range hl, Option.map_some, Option.some.injEq]
      have : (i < n + 1) ↔ (i < n) := by omega
      simp [this]
    · simp [hl]

theorem table_skip {r : Raster D} {n size : Nat} (hv : Valid r n = false) : table r n size = table r (n + 1) size := by
  unfold table
  apply List.map_congr_left
  intro v _
  by_cases h : v = n
  · subst h; simp [hv]
  · have : (v < n + 1) ↔ (v < n) := by omega
    simp [this]

/-- The points after a list of pixels. -/
def pointsOf (r : Raster D) (ps : List (Nat × Nat)) : List (Pt D) := (ps.filter fun p => Valid r (num r p)).filterMap (pixelPoint r)

theorem pointsOf_length {r : Raster D} (ps : List (Nat × Nat)) {n : Nat} (hps : ps.map (num r) = List.range n)  :
    (pointsOf r ps).length = rank r n := by
  unfold rank
  rw [← hps, List.filter_map, List.length_map]
  unfold pointsOf
  generalize hq : ps.filter (fun p => Valid r (num r p)) = qs
  have hv : ∀ p ∈ qs, Valid r (num r p) = true := by
    intro p hp; rw [← hq] at hp; exact (List.mem_filter.1 hp).2
  have e : (ps.filter (Valid r ∘ num r)) = qs := hq
  rw [e]
  clear hq e hps
  induction qs with
  | nil => rfl
  | cons q qs ih =>
    have h1 := hv q (by simp)
    unfold Valid num at h1
    cases he : r.elevation[q.1 * r.width + q.2]? with
    | none => rw [he] at h1; simp at h1
    | some e =>
      have : pixelPoint r q = some ⟨(r.pos q.1 q.2).1, (r.pos q.1 q.2).2, e⟩ := by simp [pixelPoint, he]
      rw [List.filterMap_cons, this]
      simp only [List.length_cons]
      rw [ih fun p hp => hv p (by simp [hp])]

theorem fold_vertices {r : Raster D} {size : Nat} (hsize : size = r.width * r.height) (hW : size < W)
    (hel : r.elevation.length = size) (rest : List (Nat × Nat)) :
    ∀ (done : List (Nat × Nat)) (n : Nat), done.map (num r) = List.range n →
      (done ++ rest).map (num r) = List.range size →
      Res.foldM' (vertexStep r) (pointsOf r done, table r n size) rest = .ok (pointsOf r (done ++ rest), table r size size) := by
  induction rest with
  | nil =>
    intro done n h1 h2
    rw [List.append_nil] at h2 ⊢
    have hn : n = size := by
      have := congrArg List.length (h1.symm.trans h2)
      simpa using this
    rw [hn]
    rfl
  | cons p ps ih =>
    intro done n h1 h2
    have hnum : num r p = n ∧ n < size := by
      have hl : done.length = n := by simpa using congrArg List.length h1
      have := congrArg (fun l => l[n]?) h2
      simp only [List.map_append, List.map_cons] at this
      rw [List.getElem?_append_right (by simp [hl])] at this
      simp only [List.length_map, hl, Nat.sub_self, List.getElem?_cons_zero] at this
      by_cases hlt : n < size
      · rw [List.getElem?_range hlt] at this
        exact ⟨by simpa using this, hlt⟩
      · rw [List.getElem?_eq_none (by simp; omega)] at this
        simp at this
    obtain ⟨hn, hlt⟩ := hnum
    have h1' : (done ++ [p]).map (num r) = List.range (n + 1) := by
      rw [List.map_append, h1, List.range_succ]; simp [hn]
    have hnext := ih (done ++ [p]) (n + 1) h1' (by rw [List.append_assoc]; exact h2)
    rw [List.append_assoc] at hnext
    simp only [List.cons_append, List.nil_append] at hnext
    rw [Res.foldM'_cons]
    have hmod : (p.1 * r.width + p.2) % W = n := by
      have : p.1 * r.width + p.2 = n := hn
      rw [this, Nat.mod_eq_of_lt (by omega)]
    have hstep : vertexStep r (pointsOf r done, table r n size) p = .ok (pointsOf r (done ++ [p]), table r (n + 1) size) := by
      unfold vertexStep
      simp only [hmod]
      rw [Res.index_of_lt (by omega : n < r.elevation.length), Res.ok_bind]
      have he : r.elevation[n]? = some (r.elevation[n]'(by omega)) := List.getElem?_eq_getElem _
      cases hv : r.noData (r.elevation[n]'(by omega)) with
      | true =>
        have hval : Valid r n = false := by unfold Valid; rw [he]; simp [hv]
        have hp : pointsOf r (done ++ [p]) = pointsOf r done := by
          unfold pointsOf
          rw [List.filter_append, List.filter_cons, hn, hval]
          simp
        rw [hp, ← table_skip hval]
        rfl
      | false =>
        have hval : Valid r n = true := by unfold Valid; rw [he]; simp [hv]
        have hpx : pixelPoint r p = some ⟨(r.pos p.1 p.2).1, (r.pos p.1 p.2).2, r.elevation[n]'(by omega)⟩ := by
          unfold pixelPoint
          rw [show p.1 * r.width + p.2 = n from hn, he]
          rfl
        have hp : pointsOf r (done ++ [p]) = pointsOf r done ++ [⟨(r.pos p.1 p.2).1, (r.pos p.1 p.2).2, r.elevation[n]'(by omega)⟩] := by
          unfold pointsOf
          rw [List.filter_append, List.filter_cons, hn, hval, List.filterMap_append]
          simp [hpx]
        have hlen : n < (table r n size).length := by simp [table, hlt]
        rw [hp, ← table_set hlt hval, pointsOf_length done h1]
        simp only [Bool.false_eq_true, if_false, if_pos hlen, Res.pure_eq]
    rw [hstep, Res.ok_bind]
    exact hnext

theorem readVertices_ok {r : Raster D} (hW : r.width * r.height < W) (hel : r.elevation.length = r.width * r.height) :
    readVertices r = .ok (pointsOf r (pixels r.height r.width), table r (r.width * r.height) (r.width * r.height)) := by
  unfold readVertices
  rw [Nat.mod_eq_of_lt hW]
  have h0 : List.replicate (r.width * r.height) NO_ID = table r 0 (r.width * r.height) := by
    unfold table
    simp [List.map_const']
  rw [h0]
  have := fold_vertices (r := r) rfl hW hel (pixels r.height r.width) [] 0 rfl (by
    rw [List.nil_append, Nat.mul_comm]; exact pixels_num _ _)
  rw [List.nil_append] at this
  exact this

/-! ## Polygons -/

theorem lookup_table {r : Raster D} {size : Nat} (hW : size < W) (vs : List Nat) (h : ∀ v ∈ vs, v < size) :
    lookup (table r size size) vs = .ok (if vs.all (Valid r) then some (vs.map (rank r)) else none) := by
  induction vs with
  | nil => rfl
  | cons v vs ih =>
    have hv := h v (by simp)
    have hget : (table r size size)[v]? = some (if Valid r v then rank r v else NO_ID) := by
      unfold table
      rw [List.getElem?_map, List.getElem?_range hv]
      simp [hv]
    rw [lookup, Res.index_eq_ok.2 hget, Res.ok_bind]
    cases hval : Valid r v with
    | false => simp [hval]
    | true =>
      have : rank r v ≠ NO_ID := by
        have := rank_le r v
        unfold W at hW; unfold NO_ID; omega
      simp only [if_true, this, if_false, ih fun x hx => h x (by simp [hx]), Res.ok_bind, List.all_cons, hval, Bool.true_and,
        List.map_cons]
      cases vs.all (Valid r) <;> rfl

theorem square_eq {w h i j : Nat} (hW : w * h < W) (hi : i + 1 < h) (hj : j + 1 < w) :
    square w i j = (corners4 (i, j)).map fun p => p.1 * w + p.2 := by
  have hb := num_lt (h := h) (w := w) hi hj
  rw [Nat.mul_comm h w] at hb
  have e : (i + 1) * w = i * w + w := by ring
  unfold square corners4
  simp only [List.map_cons, List.map_nil]
  rw [Nat.mod_eq_of_lt (by omega), Nat.mod_eq_of_lt (by omega), Nat.mod_eq_of_lt (by omega), Nat.mod_eq_of_lt (by omega), e]
  congr 2
  congr 1
  · omega
  · congr 1; omega

theorem filterMap_if {α β : Type} (p : α → Bool) (g : α → β) (l : List α) :
    (l.map fun a => if p a then some (g a) else none).filterMap id = (l.filter p).map g := by
  induction l with
  | nil => rfl
  | cons a as ih =>
    rw [List.map_cons, List.filterMap_cons, List.filter_cons]
    cases p a
    · exact ih
    · exact congrArg (g a :: ·) ih

/-- **C28.**  The surface has one vertex per valid pixel, in row order, and one polygon per square of four valid pixels, made of the
vertices of these four pixels. -/
theorem dem_loaded {r : Raster D} (hw : 0 < r.width) (hh : 0 < r.height) (hW : r.width * r.height < W)
    (hel : r.elevation.length = r.width * r.height) :
    load r = .ok
      { points := ((pixels r.height r.width).filter fun p => Valid r (num r p)).filterMap (pixelPoint r)
        polygons := (squares r).map fun s => (corners4 s).map fun p => rank r (num r p) } := by
  unfold load
  rw [readVertices_ok hW hel, Res.ok_bind]
  have hw' : sub32 r.width 1 = r.width - 1 := by
    have : r.width ≤ r.width * r.height := Nat.le_mul_of_pos_right _ hh
    unfold sub32; unfold W at *; omega
  have hh' : sub32 r.height 1 = r.height - 1 := by
    have : r.height ≤ r.width * r.height := Nat.le_mul_of_pos_left _ hw
    unfold sub32; unfold W at *; omega
  unfold createPolygons
  dsimp only
  rw [hw', hh', Res.mapM'_ok (g := fun ij => if (corners4 ij).all (fun p => Valid r (num r p)) then
    some ((corners4 ij).map fun p => rank r (num r p)) else none)]
  · simp only [Res.ok_bind, Res.pure_eq, Res.ok.injEq, Surface.mk.injEq]
    refine ⟨rfl, ?_⟩
    exact filterMap_if _ _ _
  · intro ij hij
    rw [mem_pixels] at hij
    rw [square_eq (h := r.height) hW (by omega) (by omega), lookup_table hW]
    · simp only [List.all_map, List.map_map]
      rfl
    · intro v hv
      obtain ⟨p, hp, rfl⟩ := List.mem_map.1 hv
      rw [Nat.mul_comm r.width]
      have : p.1 < r.height ∧ p.2 < r.width := by
        simp only [corners4, List.mem_cons, List.not_mem_nil, or_false] at hp
        rcases hp with rfl | rfl | rfl | rfl <;> dsimp only <;> omega
      exact num_lt this.1 this.2

/-- **C28: the vertex of a pixel.**  The vertex number `rank` of a valid pixel is its point. -/
theorem vertex_of_pixel {r : Raster D} (hel : r.elevation.length = r.width * r.height) {ij : Nat × Nat} (hi : ij.1 < r.height)
    (hj : ij.2 < r.width) (hv : Valid r (num r ij) = true) :
    (((pixels r.height r.width).filter fun p => Valid r (num r p)).filterMap (pixelPoint r))[rank r (num r ij)]? = pixelPoint r ij := by
  have hnum := pixels_num r.height r.width
  have hlt : num r ij < r.height * r.width := num_lt hi hj
  have hlen : (pixels r.height r.width).length = r.height * r.width := by simpa using congrArg List.length hnum
  have hij : (pixels r.height r.width)[num r ij]? = some ij := by
    have hm := mem_pixels.2 ⟨hi, hj⟩
    obtain ⟨k, hk, hke⟩ := List.getElem_of_mem hm
    have : k = num r ij := by
      have := congrArg (fun l => l[k]?) hnum
      simp only [List.getElem?_map, List.getElem?_eq_getElem hk, hke, Option.map_some,
        List.getElem?_range (by omega : k < r.height * r.width), Option.some.injEq] at this
      exact this.symm
    rw [← this, List.getElem?_eq_getElem hk, hke]
  obtain ⟨hk, hke⟩ := List.getElem?_eq_some_iff.1 hij
  have hsplit : pixels r.height r.width = (pixels r.height r.width).take (num r ij) ++ ij :: (pixels r.height r.width).drop (num r ij + 1) := by
    conv => lhs; rw [← List.take_append_drop (num r ij) (pixels r.height r.width)]
    rw [List.drop_eq_getElem_cons hk, hke]
  have htake : ((pixels r.height r.width).take (num r ij)).map (num r) = List.range (num r ij) := by
    have := congrArg (List.take (num r ij)) hnum
    rw [← List.map_take, List.take_range, Nat.min_eq_left (by omega)] at this
    exact this
  have hpl := pointsOf_length _ htake
  have hsome : ∃ e, pixelPoint r ij = some e := by
    unfold pixelPoint
    rw [List.getElem?_eq_getElem (by rw [hel, Nat.mul_comm r.width]; exact hlt)]
    exact ⟨_, rfl⟩
  obtain ⟨e, he⟩ := hsome
  rw [hsplit, List.filter_append, List.filterMap_append]
  change (pointsOf r _ ++ _)[_]? = _
  rw [List.getElem?_append_right (by omega), hpl, Nat.sub_self, List.filter_cons, if_pos hv, List.filterMap_cons, he]
  rfl

/-! ## C29 -/

/-- Two pixels of a square are the ends of one of its sides. -/
def Side (p q : Nat × Nat) : Prop := (p.1 = q.1 ∧ (p.2 + 1 = q.2 ∨ q.2 + 1 = p.2)) ∨ (p.2 = q.2 ∧ (p.1 + 1 = q.1 ∨ q.1 + 1 = p.1))

instance (p q : Nat × Nat) : Decidable (Side p q) := by unfold Side; infer_instance

/-- The edges of a polygon: each vertex with the next one, the last with the first. -/
def edges {α : Type} (l : List α) : List (α × α) := l.zip (l.drop 1 ++ l.take 1)

/-- The pixels are listed in the order of the contour: each edge is a side of the square. -/
def Contour (l : List (Nat × Nat)) : Prop := ∀ e ∈ edges l, Side e.1 e.2

/-- **C29 fails for every polygon**: the order of the vertices is that of an hourglass. -/
theorem never_contour (s : Nat × Nat) : ¬ Contour (corners4 s) := by
  intro h
  have := h ((s.1, s.2 + 1), (s.1 + 1, s.2)) (by simp [edges, corners4])
  unfold Side at this
  simp at this

/-- Two polygons share an edge, in one direction or the other. -/
def ShareEdge {α : Type} (p q : List α) : Prop := ∃ e ∈ edges p, e ∈ edges q ∨ (e.2, e.1) ∈ edges q

/-- **C29 fails for the squares of a row**: neighbours share no edge, so that the surface is cut into columns. -/
theorem row_neighbours_apart (s : Nat × Nat) : ¬ ShareEdge (corners4 s) (corners4 (s.1, s.2 + 1)) := by
  obtain ⟨i, j⟩ := s
  rintro ⟨e, he, h⟩
  simp only [edges, corners4, List.drop_succ_cons, List.drop_zero, List.take_succ_cons, List.take_zero, List.cons_append,
    List.nil_append, List.zip_cons_cons, List.zip_nil_left, List.mem_cons, List.not_mem_nil, or_false] at he h
  rcases he with rfl | rfl | rfl | rfl <;> simp only [Prod.mk.injEq] at h <;> omega

/-- **C29 for the squares of a column**: they share the edge between them. -/
theorem column_neighbours_partial (s : Nat × Nat) : ShareEdge (corners4 s) (corners4 (s.1 + 1, s.2)) :=
  ⟨((s.1 + 1, s.2), (s.1 + 1, s.2 + 1)), by simp [edges, corners4], Or.inl (by simp [edges, corners4])⟩

/-- A raster of 2 by 3 pixels with a missing one. -/
def raster1 : Raster Int where
  width := 3
  height := 2
  elevation := [10, 11, 12, 13, 14, -1]
  noData e := e = -1
  pos i j := (j, i)

/-- It loads as five points and one polygon, in the order of an hourglass. -/
example : load raster1 =
    .ok ⟨[⟨0, 0, 10⟩, ⟨1, 0, 11⟩, ⟨2, 0, 12⟩, ⟨0, 1, 13⟩, ⟨1, 1, 14⟩], [[0, 1, 3, 4]]⟩ := by decide +kernel

example : 0 < raster1.width ∧ 0 < raster1.height ∧ raster1.width * raster1.height < W ∧
    raster1.elevation.length = raster1.width * raster1.height ∧ squares raster1 = [(0, 0)] := by decide +kernel

/-! ## C53 -/

/-- **C53 fails for every image**: the elevations of the vertices after the `width * height` first ones are read before being
assigned. -/
theorem poly_uninitialised {r : Raster D} (hel : r.elevation.length = r.width * r.height) : polyElevations r = .ub := by
  unfold polyElevations
  dsimp only
  have e : (r.width + 1) * (r.height + 1) = r.width * r.height + (r.width + r.height + 1) := by ring
  rw [hel, e, Nat.add_sub_cancel_left]
  generalize hn : r.width + r.height = n
  have key : ∀ l : List D, l.length = r.width * r.height → Res.mapM' (fun v => (do
      match ← Res.index (r.elevation.map some ++ List.replicate (n + 1) none) v with
      | none => Res.ub
      | some e => if r.noData e then pure none else pure (some e) : Res (Option D)))
      ((List.range (r.width * r.height) ++ [r.width * r.height]) ++ (List.range n).map fun x => r.width * r.height + (x + 1)) = .ub := by
    intro _ _
    have mapM_append : ∀ {α β : Type} (g : α → Res β) (a b : List α), Res.mapM' g (a ++ b) =
        (Res.mapM' g a >>= fun x => Res.mapM' g b >>= fun y => .ok (x ++ y)) := by
      intro α β g a b
      induction a with
      | nil =>
        simp only [List.nil_append, Res.mapM'_nil, Res.ok_bind]
        cases Res.mapM' g b <;> rfl
      | cons x xs ih =>
        rw [List.cons_append, Res.mapM'_cons, Res.mapM'_cons, ih]
        cases g x <;> simp only [Res.ok_bind, Res.throw_bind, Res.ub_bind, Res.diverge_bind]
        cases Res.mapM' g xs <;> simp only [Res.ok_bind, Res.throw_bind, Res.ub_bind, Res.diverge_bind]
        cases Res.mapM' g b <;> rfl
    rw [mapM_append, mapM_append, Res.mapM'_ok (g := fun v => (r.elevation[v]?).bind fun e => if r.noData e then none else some e)]
    · rw [Res.ok_bind, Res.mapM'_cons]
      have : Res.index (r.elevation.map some ++ List.replicate (n + 1) none) (r.width * r.height) = .ok none := by
        rw [Res.index_eq_ok, List.getElem?_append_right (by simp [hel])]
        simp [hel]
      rw [this]
      rfl
    · intro v hv
      rw [List.mem_range] at hv
      have : Res.index (r.elevation.map some ++ List.replicate (n + 1) none) v = .ok (some (r.elevation[v]'(by omega))) := by
        rw [Res.index_eq_ok, List.getElem?_append_left (by simp; omega)]
        simp [hel, hv]
      rw [this, Res.ok_bind, List.getElem?_eq_getElem (by omega)]
      simp only [Option.bind_some]
      split <;> rfl
  have hr : List.range (r.width * r.height + (n + 1)) =
      (List.range (r.width * r.height) ++ [r.width * r.height]) ++ (List.range n).map fun x => r.width * r.height + (x + 1) := by
    rw [List.range_add, List.range_succ_eq_map]
    simp [Function.comp_def]
  rw [hr]
  exact key r.elevation hel

end Verif.Props.Dem
