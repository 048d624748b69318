import Verif.Lemmas.MlSurfaces

/-!
# Numbers of the vertices and borders of the surfaces of `.ml` files

In a TSurf of a GOCAD file the vertices (`VRTX`) and the border starts (`BORDER`) are objects with a number, and the triangles, the border stones and
the border starts name vertices by their numbers.
-/

set_option linter.unusedSectionVars false

namespace Verif.Props.MlAtoms

open Verif Verif.Gocad Verif.GocadMesh Verif.Ml

variable {D : Type} [Num D]

/-- The number of the vertex on a line, if it has one. -/
def vertexNumber (l : Str) : Option Str := if startsWith l cs!"VRTX " then (split l)[1]? else none

/-- The number of the object on a line, if it has one. -/
def objectNumber (l : Str) : Option Str := if startsWith l cs!"VRTX " || startsWith l cs!"BORDER " then (split l)[1]? else none

/-- The vertices that a line names. -/
def named (l : Str) : List Str :=
  if startsWith l cs!"TRGL " || startsWith l cs!"BSTONE " then (split l).drop 1 else if startsWith l cs!"BORDER " then (split l).drop 2 else []

/-- The numbers from `n` on. -/
def numbers (n count : Nat) : List Str := (List.range' n count).map showNat

theorem numbers_append (n a b : Nat) : numbers n a ++ numbers (n + a) b = numbers n (a + b) := by
  unfold numbers
  rw [← List.map_append, List.range'_append_1]

theorem split_vrtx (n : Nat) (p : Pt D) : (split (cs!"VRTX" ++ spaced (showNat n :: p.toks)))[1]? = some (showNat n) := by
  rw [split_kw_spaced' (by decide), List.flatMap_cons, split_tok (isTok_showNat n)]
  rfl

theorem split_trgl (t : Tri) : split (trglLine t) = [cs!"TRGL", showNat t.1, showNat t.2.1, showNat t.2.2] := by
  unfold trglLine
  rw [split_kw_spaced (by decide) (by simp [isTok_showNat])]

theorem split_border (n a b : Nat) : split (cs!"BORDER" ++ spaced [showNat n, showNat a, showNat b]) = [cs!"BORDER", showNat n, showNat a, showNat b] := by
  rw [split_kw_spaced (by decide) (by simp [isTok_showNat])]

theorem split_stone (a : Nat) : split (cs!"BSTONE" ++ spaced [showNat a]) = [cs!"BSTONE", showNat a] := by
  rw [split_kw_spaced (by decide) (by simp [isTok_showNat])]

/-- The vertex lines of a surface. -/
def vertexLines (offset : Nat) (pts : List (Pt D)) : File :=
  (List.range pts.length).zipWith (fun v (p : Pt D) => cs!"VRTX" ++ spaced (showNat (offset + v) :: p.toks)) pts

theorem vertexLines_cons (offset : Nat) (p : Pt D) (pts : List (Pt D)) :
    vertexLines offset (p :: pts) = (cs!"VRTX" ++ spaced (showNat offset :: p.toks)) :: vertexLines (offset + 1) pts := by
  unfold vertexLines
  rw [List.length_cons, List.range_succ_eq_map, List.zipWith_cons_cons, List.zipWith_map_left]
  congr 1
  congr 1
  funext v p
  rw [show offset + v.succ = offset + 1 + v by omega]

theorem vertexLines_numbers (f : Str → Option Str) (hf : ∀ n (p : Pt D), f (cs!"VRTX" ++ spaced (showNat n :: p.toks)) = some (showNat n))
    (pts : List (Pt D)) : ∀ offset, (vertexLines offset pts).filterMap f = numbers offset pts.length := by
  induction pts with
  | nil => intro offset; rfl
  | cons p pts ih =>
    intro offset
    rw [vertexLines_cons, List.filterMap_cons_some (hf _ _), ih]
    rfl

theorem surfaces_numbers (f : Str → Option Str) (hv : ∀ n (p : Pt D), f (cs!"VRTX" ++ spaced (showNat n :: p.toks)) = some (showNat n))
    (ht : f cs!"TFACE" = none) (hg : ∀ t, f (trglLine t) = none) (ss : List (Surface D)) : ∀ offset,
    (writeSurfaces offset ss).filterMap f = numbers offset (nbPoints ss) := by
  induction ss with
  | nil => intro offset; rfl
  | cons s ss ih =>
    intro offset
    have e : writeSurface offset s = cs!"TFACE" :: (vertexLines offset s.points ++ s.triangles.map fun t => trglLine (offset + t.1, offset + t.2.1, offset + t.2.2)) := rfl
    have h0 : (s.triangles.map fun t => trglLine (offset + t.1, offset + t.2.1, offset + t.2.2)).filterMap f = [] := by
      rw [List.filterMap_eq_nil_iff]
      intro l hl
      obtain ⟨t, _, rfl⟩ := List.mem_map.1 hl
      exact hg _
    rw [writeSurfaces, e, List.filterMap_append, ih, List.filterMap_cons_none ht, List.filterMap_append, vertexLines_numbers f hv, h0, List.append_nil,
      numbers_append]
    simp [nbPoints]

theorem borders_numbers (es : List (Nat × Nat)) : ∀ n, (borderLines n es).filterMap objectNumber = numbers n es.length := by
  induction es with
  | nil => intro n; rfl
  | cons e es ih =>
    intro n
    have h1 : objectNumber (cs!"BORDER" ++ spaced [showNat n, showNat e.1, showNat e.2]) = some (showNat n) := by
      unfold objectNumber
      rw [if_pos (by rfl), split_border]
      rfl
    rw [borderLines, List.filterMap_cons_some h1, ih]
    rfl

/-- The file of a TSurf, part by part. -/
theorem parts (f : Str → Option Str) (hn : ∀ s, f (cs!"name:" ++ s) = none) (hf : ∀ s, f (cs!"GEOLOGICAL_FEATURE" ++ spaced [s]) = none)
    (ht : ∀ s, f (cs!"GEOLOGICAL_TYPE" ++ spaced [s]) = none) (hs : ∀ n, f (cs!"BSTONE" ++ spaced [showNat n]) = none)
    (hc : (([cs!"GOCAD TSurf 1", cs!"HEADER {", cs!"}", cs!"END"] ++ writeCrs {}).all fun l => (f l).isNone) = true) (kind name : Str) (ss : List (Surface D)) :
    (writeTSurf kind name ss).filterMap f = (writeSurfaces 1 ss).filterMap f ++ (borderLines (1 + nbPoints ss) (lineStarts 1 ss)).filterMap f := by
  have hc' : ∀ l ∈ [cs!"GOCAD TSurf 1", cs!"HEADER {", cs!"}", cs!"END"] ++ writeCrs {}, f l = none := by
    intro l hl
    have := List.all_eq_true.1 hc l hl
    simpa using this
  have hz : (writeCrs {}).filterMap f = [] := List.filterMap_eq_nil_iff.2 fun l hl => hc' l (List.mem_append_right _ hl)
  have hst : ((lineStarts 1 ss).map fun e => cs!"BSTONE" ++ spaced [showNat e.1]).filterMap f = [] := by
    rw [List.filterMap_eq_nil_iff]
    intro l hl
    obtain ⟨e, _, rfl⟩ := List.mem_map.1 hl
    exact hs _
  have h1 := hc' cs!"GOCAD TSurf 1" (by simp)
  have h2 := hc' cs!"HEADER {" (by simp)
  have h3 := hc' cs!"}" (by simp)
  have h4 := hc' cs!"END" (by simp)
  unfold writeTSurf writeHeader
  simp only [List.filterMap_append, hz, hst, List.append_nil, List.nil_append, List.filterMap_cons_none h1, List.filterMap_cons_none h2,
    List.filterMap_cons_none h3, List.filterMap_cons_none h4, List.filterMap_cons_none (hn name), List.filterMap_cons_none (hf name),
    List.filterMap_cons_none (ht kind), List.filterMap_nil]
  rfl

theorem lineStarts_length (ss : List (Surface D)) : ∀ offset, (lineStarts offset ss).length = (ss.map fun s => s.starts.length).sum := by
  induction ss with
  | nil => intro offset; rfl
  | cons s ss ih => intro offset; rw [lineStarts, List.length_append, List.length_map, ih]; simp

/-- **The vertices and border starts of a TSurf have the numbers 1, 2, 3, ... in the order of the file**: each number is used once. -/
theorem objects_numbered (kind name : Str) (ss : List (Surface D)) :
    (writeTSurf kind name ss).filterMap objectNumber = numbers 1 (nbPoints ss + (ss.map fun s => s.starts.length).sum) := by
  rw [parts objectNumber (fun _ => rfl) (fun _ => rfl) (fun _ => rfl) (fun _ => rfl) (by decide) kind name ss,
    surfaces_numbers objectNumber ?_ rfl (fun _ => rfl), borders_numbers, numbers_append, lineStarts_length]
  intro n p
  unfold objectNumber
  rw [if_pos (by rfl)]
  exact split_vrtx n p

theorem borders_none (es : List (Nat × Nat)) : ∀ n, (borderLines n es).filterMap vertexNumber = [] := by
  induction es with
  | nil => intro n; rfl
  | cons e es ih => intro n; rw [borderLines, List.filterMap_cons_none (by rfl), ih]

/-- The vertices have the first numbers. -/
theorem vertices_numbered (kind name : Str) (ss : List (Surface D)) : (writeTSurf kind name ss).filterMap vertexNumber = numbers 1 (nbPoints ss) := by
  rw [parts vertexNumber (fun _ => rfl) (fun _ => rfl) (fun _ => rfl) (fun _ => rfl) (by decide) kind name ss,
    surfaces_numbers vertexNumber ?_ rfl (fun _ => rfl), borders_none, List.append_nil]
  intro n p
  unfold vertexNumber
  rw [if_pos (by rfl)]
  exact split_vrtx n p

theorem mem_numbers {n count i : Nat} (h1 : n ≤ i) (h2 : i < n + count) : showNat i ∈ numbers n count :=
  List.mem_map.2 ⟨i, List.mem_range'_1.2 ⟨h1, h2⟩, rfl⟩

theorem named_surfaces (ss : List (Surface D)) : ∀ offset, (∀ s ∈ ss, GoodSurface s) → ∀ l ∈ writeSurfaces offset ss, ∀ t ∈ named l,
    t ∈ numbers offset (nbPoints ss) := by
  induction ss with
  | nil => intro offset _ l hl; cases hl
  | cons s ss ih =>
    intro offset hg l hl t ht
    have hnb : nbPoints (s :: ss) = s.points.length + nbPoints ss := by simp [nbPoints]
    rw [hnb]
    rw [writeSurfaces] at hl
    rcases List.mem_append.1 hl with hl | hl
    · have e : writeSurface offset s = cs!"TFACE" :: (vertexLines offset s.points ++ s.triangles.map fun t => trglLine (offset + t.1, offset + t.2.1, offset + t.2.2)) := rfl
      rw [e] at hl
      rcases List.mem_cons.1 hl with rfl | hl
      · have : named cs!"TFACE" = [] := rfl
        rw [this] at ht; cases ht
      rcases List.mem_append.1 hl with hl | hl
      · have : named l = [] := by
          unfold vertexLines at hl
          rw [List.zipWith_eq_zipWith_take_min] at hl
          obtain ⟨n, p, rfl⟩ : ∃ (n : Nat) (p : Pt D), l = cs!"VRTX" ++ spaced (showNat n :: p.toks) := by
            rw [List.mem_iff_getElem?] at hl
            obtain ⟨i, hi⟩ := hl
            rw [List.getElem?_zipWith] at hi
            split at hi
            · exact ⟨_, _, (Option.some.inj hi).symm⟩
            · cases hi
          rfl
        rw [this] at ht; cases ht
      · obtain ⟨x, hx, rfl⟩ := List.mem_map.1 hl
        have hb := (hg s List.mem_cons_self).tris x hx
        have e : named (trglLine (offset + x.1, offset + x.2.1, offset + x.2.2)) = [showNat (offset + x.1), showNat (offset + x.2.1), showNat (offset + x.2.2)] := by
          unfold named
          rw [if_pos (by rfl), split_trgl]
          rfl
        rw [e] at ht
        simp only [List.mem_cons, List.not_mem_nil, or_false] at ht
        rcases ht with rfl | rfl | rfl
        · exact mem_numbers (by omega) (by omega)
        · exact mem_numbers (by omega) (by omega)
        · exact mem_numbers (by omega) (by omega)
    · have := ih _ (fun s h => hg s (List.mem_cons_of_mem _ h)) l hl t ht
      rw [← numbers_append]
      exact List.mem_append_right _ this

/-- **Triangles, border stones and border starts name vertices of the same TSurf.** -/
theorem named_exist {kind name : Str} {ss : List (Surface D)} (hg : ∀ s ∈ ss, GoodSurface s) {l : Str} (hl : l ∈ writeTSurf kind name ss) {t : Str}
    (ht : t ∈ named l) : t ∈ (writeTSurf kind name ss).filterMap vertexNumber := by
  rw [vertices_numbered]
  unfold writeTSurf at hl
  simp only [List.mem_append] at hl
  have none : ∀ {l : Str}, named l = [] → t ∈ named l → t ∈ numbers 1 (nbPoints ss) := fun h ht => by rw [h] at ht; cases ht
  have low : ∀ e ∈ lineStarts 1 ss, 1 ≤ e.1 ∧ 1 ≤ e.2 := by
    intro e he
    have : ∀ (ss : List (Surface D)) (v : Nat), ∀ e ∈ lineStarts v ss, v ≤ e.1 ∧ v ≤ e.2 := by
      intro ss
      induction ss with
      | nil => intro v e he; cases he
      | cons s ss ih =>
        intro v e he
        rw [lineStarts] at he
        rcases List.mem_append.1 he with he | he
        · obtain ⟨x, _, rfl⟩ := List.mem_map.1 he
          exact ⟨by simp, by simp⟩
        · have := ih _ e he
          omega
    exact this ss 1 e he
  rcases hl with ((((((hl | hl) | hl) | hl) | hl) | hl) | hl) | hl
  · rw [List.mem_singleton] at hl; subst hl; exact none rfl ht
  · unfold writeHeader at hl
    simp only [List.mem_append, List.mem_singleton] at hl
    rcases hl with (rfl | rfl) | rfl <;> exact none rfl ht
  · exact none (by
      have : ((writeCrs {}).all fun l => (named l).isEmpty) = true := by decide
      simpa using List.all_eq_true.1 this l hl) ht
  · simp only [List.mem_cons, List.not_mem_nil, or_false] at hl
    rcases hl with rfl | rfl <;> exact none rfl ht
  · exact named_surfaces ss 1 hg l hl t ht
  · obtain ⟨e, he, rfl⟩ := List.mem_map.1 hl
    have e1 : named (cs!"BSTONE" ++ spaced [showNat e.1]) = [showNat e.1] := by
      unfold named
      rw [if_pos (by rfl), split_stone]
      rfl
    rw [e1, List.mem_singleton] at ht
    subst ht
    have h1 := lineStarts_lt ss 1 hg e he
    exact mem_numbers (low e he).1 (by omega)
  · have : ∀ (es : List (Nat × Nat)) (n : Nat), l ∈ borderLines n es → ∃ k, ∃ e ∈ es, l = cs!"BORDER" ++ spaced [showNat k, showNat e.1, showNat e.2] := by
      intro es
      induction es with
      | nil => intro n h; cases h
      | cons e es ih =>
        intro n h
        rw [borderLines] at h
        rcases List.mem_cons.1 h with rfl | h
        · exact ⟨n, e, by simp, rfl⟩
        · obtain ⟨k, e', he', x⟩ := ih _ h
          exact ⟨k, e', List.mem_cons_of_mem _ he', x⟩
    obtain ⟨k, e, he, rfl⟩ := this _ _ hl
    have e1 : named (cs!"BORDER" ++ spaced [showNat k, showNat e.1, showNat e.2]) = [showNat e.1, showNat e.2] := by
      unfold named
      rw [if_neg (by rw [Bool.not_eq_true]; rfl), if_pos (by rfl), split_border]
      rfl
    have h1 := lineStarts_lt ss 1 hg e he
    have h2 := low e he
    rw [e1] at ht
    simp only [List.mem_cons, List.not_mem_nil, or_false] at ht
    rcases ht with rfl | rfl
    · exact mem_numbers h2.1 (by omega)
    · exact mem_numbers h2.2 (by omega)
  · rw [List.mem_singleton] at hl; subst hl; exact none rfl ht

/-- Two triangles and a line start on each. -/
def twoTriangles : List (Surface Int) :=
  [⟨1, cs!"a", [⟨0, 0, 0⟩, ⟨1, 0, 0⟩, ⟨0, 1, 0⟩], [(0, 1, 2)], [(0, 1)]⟩, ⟨2, cs!"b", [⟨0, 0, 1⟩, ⟨1, 0, 1⟩, ⟨0, 1, 1⟩], [(0, 1, 2)], [(2, 0)]⟩]

example : ∀ s ∈ twoTriangles, GoodSurface s := by
  intro s hs
  simp only [twoTriangles, List.mem_cons, List.not_mem_nil, or_false] at hs
  rcases hs with rfl | rfl <;> exact ⟨by simp, by decide, by decide⟩

example : (writeTSurf cs!"fault" cs!"F" twoTriangles).drop 14 = [cs!"TFACE", cs!"VRTX 1 0 0 0", cs!"VRTX 2 1 0 0", cs!"VRTX 3 0 1 0", cs!"TRGL 1 2 3",
    cs!"TFACE", cs!"VRTX 4 0 0 1", cs!"VRTX 5 1 0 1", cs!"VRTX 6 0 1 1", cs!"TRGL 4 5 6", cs!"BSTONE 1", cs!"BSTONE 6", cs!"BORDER 7 1 2", cs!"BORDER 8 6 4",
    cs!"END"] := by decide +kernel

end Verif.Props.MlAtoms
