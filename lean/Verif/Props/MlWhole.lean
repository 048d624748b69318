import Verif.Model.MlWhole
import Verif.Props.MlCorners
import Verif.Props.MlBorders
import Verif.Lemmas.GocadLoad
import Mathlib.Data.List.Dedup

/-!
# Whole `.ml` files
-/

set_option linter.unusedSectionVars false

namespace Verif.Props.MlWhole

open Verif Verif.Gocad Verif.GocadMesh Verif.Ml Verif.MlLines Verif.LsoLines Verif.MlWhole
open Verif.Props.MlRoundTrip Verif.Props.MlCorners Verif.Props.MlLines Verif.Props.MlUniques Verif.Props.MlBorders Res

variable {D : Type}

section

variable [Num D]

/-! ## Points of a file -/

theorem tsLine_points {ts t : TSurf D} {kw : Str} {tokens : List Str} (ht : tsLine ts kw tokens = .ok t) :
    t.points.length ≤ ts.points.length + 1 := by
  unfold tsLine at ht
  split at ht
  · unfold tsVrtx at ht
    obtain ⟨o, _, ht⟩ := bind_eq_ok.1 ht
    obtain ⟨p, _, ht⟩ := bind_eq_ok.1 ht
    obtain ⟨a, _, ht⟩ := bind_eq_ok.1 ht
    rw [← Res.ok.inj ht]; simp
  split at ht
  · unfold tsAtom at ht
    obtain ⟨o, _, ht⟩ := bind_eq_ok.1 ht
    obtain ⟨o', _, ht⟩ := bind_eq_ok.1 ht
    obtain ⟨p, _, ht⟩ := bind_eq_ok.1 ht
    obtain ⟨a, _, ht⟩ := bind_eq_ok.1 ht
    rw [← Res.ok.inj ht]; simp
  split at ht
  · unfold tsTrgl at ht
    obtain ⟨_, _, ht⟩ := bind_eq_ok.1 ht
    obtain ⟨_, _, ht⟩ := bind_eq_ok.1 ht
    obtain ⟨_, _, ht⟩ := bind_eq_ok.1 ht
    obtain ⟨_, _, ht⟩ := bind_eq_ok.1 ht
    obtain ⟨_, _, ht⟩ := bind_eq_ok.1 ht
    obtain ⟨_, _, ht⟩ := bind_eq_ok.1 ht
    rw [← Res.ok.inj ht]; simp
  split at ht
  · unfold tsBstone at ht
    obtain ⟨_, _, ht⟩ := bind_eq_ok.1 ht
    obtain ⟨_, _, ht⟩ := bind_eq_ok.1 ht
    rw [← Res.ok.inj ht]; simp
  split at ht
  · unfold tsBorder at ht
    obtain ⟨_, _, ht⟩ := bind_eq_ok.1 ht
    obtain ⟨_, _, ht⟩ := bind_eq_ok.1 ht
    obtain ⟨_, _, ht⟩ := bind_eq_ok.1 ht
    obtain ⟨_, _, ht⟩ := bind_eq_ok.1 ht
    rw [← Res.ok.inj ht]; simp
  split at ht
  · rw [← Res.ok.inj ht]; simp [tsClose]
  · rw [← Res.ok.inj ht]; simp

theorem loop_points : ∀ {f : File} {ts ts' : TSurf D} {rest : File}, readTfacesLoop ts f = .ok (ts', rest) → ts'.points.length ≤ ts.points.length + f.length
  | [], _, _, _, h => by cases h
  | l :: ls, ts, ts', rest, h => by
    unfold readTfacesLoop at h
    cases hs : split l with
    | nil => rw [hs] at h; cases h
    | cons kw args =>
      rw [hs] at h
      simp only at h
      split at h
      · injection h with h
        have : tsClose ts = ts' := congrArg Prod.fst h
        rw [← this]
        simp [tsClose]
      · obtain ⟨t, ht, h⟩ := bind_eq_ok.1 h
        have := loop_points h
        have := tsLine_points ht
        simp only [List.length_cons]
        omega

/-- A TSurf has no more points than the file has lines. -/
theorem tsurf_points {f rest : File} {ts : TSurf D} (h : readTSurf f = .ok (some (ts, rest))) : ts.points.length ≤ f.length := by
  unfold readTSurf at h
  split at h
  · cases h
  · rename_i l f0 hg
    obtain ⟨⟨name, f1⟩, h1, h⟩ := bind_eq_ok.1 h
    obtain ⟨⟨crs, f2⟩, h2, h⟩ := bind_eq_ok.1 h
    obtain ⟨⟨props, f3⟩, h3, h⟩ := bind_eq_ok.1 h
    obtain ⟨r, hr, h⟩ := bind_eq_ok.1 h
    have e : r = (ts, rest) := Option.some.inj (Res.ok.inj h)
    subst e
    unfold readTfaces at hr
    obtain ⟨⟨_, f4⟩, h4, hr⟩ := bind_eq_ok.1 hr
    have a0 : f0.length ≤ f.length := by
      have : gotoKeyword cs!"GOCAD TSurf" f = .ok (l, f0) := by unfold gotoKeyword; rw [hg]; rfl
      exact (gotoKeyword_fwd _ f).2 _ _ this
    have a1 := (readHeader_fwd f0).2 _ _ h1
    have a2 := (readCrs_fwd f1).2 _ _ h2
    have a3 := (readPropHeader_fwd [] f2).2 _ _ h3
    have a4 := (gotoKeyword_fwd _ f3).2 _ _ h4
    have := loop_points hr
    simp only [List.length_nil] at this
    omega

theorem data_points : ∀ {ts : List RTsurf} {f : File} {T : List (TSurf D × List Nat)}, readData ts f = .ok T → ∀ x ∈ T, x.1.points.length ≤ f.length
  | [], f, T, h, x, hx => by cases h; cases hx
  | t :: ts, f, T, h, x, hx => by
    unfold readData at h
    obtain ⟨o, h1, h⟩ := bind_eq_ok.1 h
    cases o with
    | none => cases h
    | some p =>
      obtain ⟨data, f'⟩ := p
      simp only at h
      obtain ⟨r, h2, h⟩ := bind_eq_ok.1 h
      cases h
      rcases List.mem_cons.1 hx with rfl | hx
      · exact tsurf_points h1
      · have := data_points h2 x hx
        have := (readTSurf_fwd f).2 _ _ h1
        omega

/-! ## Any file -/

/-- The parts of a model loaded. -/
theorem load_parts {lib : Library D} {f : File} {w : Whole D} (h : loadWhole lib f = .ok w) : ∃ records starts,
    loadMl f = .ok w.model ∧ loadCorners f = .ok (records, starts) ∧ w.corners = (cornersMade (lib.merge w.model.meshes) records).1 ∧
    buildLines (closeAt (lib.close w.model.meshes)) w.corners.length
      ((List.range w.model.surfaces.length).map (surfaceRead lib w.model.meshes (cornersMade (lib.merge w.model.meshes) records).2)) starts = .ok w.built := by
  unfold loadWhole at h
  obtain ⟨m, hm, h⟩ := bind_eq_ok.1 h
  obtain ⟨⟨records, starts⟩, hr, h⟩ := bind_eq_ok.1 h
  simp only at h
  obtain ⟨b, hb, h⟩ := bind_eq_ok.1 h
  cases h
  exact ⟨records, starts, hm, hr, rfl, hb⟩

theorem readLines_shorter : ∀ (s : RState × Mode) (f : File) {st : RState} {rest : File}, readLines s f = .ok (st, rest) → rest.length ≤ f.length
  | (_, .top), [], _, _, h => by cases h
  | (_, .outside), [], _, _, h => by cases h
  | (_, .block _ _), [], _, _, h => by cases h
  | (_, .layer _ _), [], _, _, h => by cases h
  | (_, .faultBlock _ _), [], _, _, h => by cases h
  | s, l :: ls, _, _, h => by
    obtain ⟨st0, mode⟩ := s
    rw [readLines.eq_3] at h
    split at h
    · cases h; simp
    · obtain ⟨s', _, h⟩ := bind_eq_ok.1 h
      have := readLines_shorter s' ls h
      simp only [List.length_cons]
      omega

theorem addTsurf_surfaces {m m' : Ml.Loaded D} {t : RTsurf} (h : addTsurf m t = .ok m') : m'.surfaces = m.surfaces := by
  unfold addTsurf at h
  split at h
  · obtain ⟨_, _, h⟩ := bind_eq_ok.1 h
    rw [← Res.ok.inj h]
  · split at h
    · rw [← Res.ok.inj h]
    · obtain ⟨_, _, h⟩ := bind_eq_ok.1 h
      rw [← Res.ok.inj h]

theorem addTsurfs_surfaces : ∀ {ts : List RTsurf} {m m' : Ml.Loaded D}, Res.foldM' addTsurf m ts = .ok m' → m'.surfaces = m.surfaces
  | [], _, _, h => by cases h; rfl
  | t :: ts, m, m', h => by
    rw [Res.foldM'_cons] at h
    obtain ⟨m1, h1, h⟩ := bind_eq_ok.1 h
    exact (addTsurfs_surfaces h).trans (addTsurf_surfaces h1)

theorem created_surfaces {name : Option Str} {st : RState} {m : Ml.Loaded D} (h : createTsurfs name st = .ok m) : m.surfaces = st.surfaces := by
  unfold createTsurfs at h
  obtain ⟨m1, h1, h⟩ := bind_eq_ok.1 h
  rw [← Res.ok.inj h]
  have := addTsurfs_surfaces h1
  unfold addUnassigned
  simp only
  split
  · exact this
  · exact this

/-- The surfaces and the records of corners come from the same lines. -/
theorem files_parts {f : File} {L : Ml.Loaded D} (h : loadMl f = .ok L) {records : List (Pt D × Nat × Nat)} {starts : List (Nat × Nat × Nat)}
    (hc : (loadCorners f : Res (List (Pt D × Nat × Nat) × List (Nat × Nat × Nat))) = .ok (records, starts)) :
    ∃ (g g' : File) (st : RState) (T : List (TSurf D × List Nat)), g.length ≤ f.length ∧ readLines ({}, .top) g = .ok (st, g') ∧ g'.length ≤ f.length ∧
      readSurfaces st.tsurfs g' = .ok L.meshes ∧ readData st.tsurfs g' = .ok T ∧ allStones T = .ok records ∧ allStarts T = .ok starts ∧
      L.surfaces = st.surfaces := by
  unfold loadMl at h
  obtain ⟨⟨l, f1⟩, h1, h⟩ := bind_eq_ok.1 h
  obtain ⟨⟨name, f2⟩, h2, h⟩ := bind_eq_ok.1 h
  obtain ⟨⟨crs, f3⟩, h3, h⟩ := bind_eq_ok.1 h
  obtain ⟨⟨st, f4⟩, h4, h⟩ := bind_eq_ok.1 h
  obtain ⟨m, h5, h⟩ := bind_eq_ok.1 h
  obtain ⟨meshes, h6, h⟩ := bind_eq_ok.1 h
  cases h
  unfold loadCorners at hc
  rw [h1, ok_bind] at hc
  simp only at hc h2
  rw [h2, ok_bind] at hc
  simp only at hc h3
  rw [h3, ok_bind] at hc
  simp only at hc h4
  rw [h4, ok_bind] at hc
  simp only at hc h5 h6
  obtain ⟨T, h7, hc⟩ := bind_eq_ok.1 hc
  obtain ⟨rs, h8, hc⟩ := bind_eq_ok.1 hc
  obtain ⟨ss, h9, hc⟩ := bind_eq_ok.1 hc
  cases hc
  have a1 := (gotoKeyword_fwd _ f).2 _ _ h1
  have a2 := (readHeader_fwd f1).2 _ _ h2
  have a3 := (readCrs_fwd f2).2 _ _ h3
  have a4 := readLines_shorter _ f3 h4
  refine ⟨f3, f4, st, T, by omega, h4, by omega, h6, h7, h8, h9, ?_⟩
  have := created_surfaces h5
  exact this

/-- The mesh of a surface read. -/
theorem meshOf_mem {meshes : List (Mesh D)} (hn : (meshes.map Prod.fst).Nodup) {F : Mesh D} (hF : F ∈ meshes) : meshOf meshes F.1 = F.2 := by
  unfold meshOf
  cases hf : meshes.find? fun G => decide (G.1 = F.1) with
  | none =>
    have := List.find?_eq_none.1 hf F hF
    simp at this
  | some G =>
    have h1 := List.mem_of_find?_eq_some hf
    have h2 : G.1 = F.1 := by simpa using List.find?_some hf
    rw [List.inj_on_of_nodup_map hn h1 hF h2]
    rfl

/-- The corners set are corners made. -/
theorem made_lt {near : Pt D → Pt D → Prop} {merge : Merge (Pt D)} (hm : Merges near merge) {records : List (Pt D × Nat × Nat)} {n v c : Nat}
    (h : cornerAt (cornersMade merge records).2 n v = some c) : c < (cornersMade merge records).1.length := by
  obtain ⟨i, h1, h2⟩ := zip_mem (cornerAt_mem h)
  rw [List.getElem?_map] at h1
  obtain ⟨r, hr, _⟩ := Option.map_eq_some_iff.1 h1
  have hp : (records.map Prod.fst)[i]? = some r.1 := by rw [List.getElem?_map, hr]; rfl
  obtain ⟨q, hq, _⟩ := hm.kept _ i r.1 c hp h2
  exact (List.getElem?_eq_some_iff.1 hq).1

theorem corners_known (lib : Library D) {near : Pt D → Pt D → Prop} (meshes : List (Mesh D)) (hm : Merges near (lib.merge meshes))
    (records : List (Pt D × Nat × Nat)) (n : Nat) : CornersKnown (cornersMade (lib.merge meshes) records).1.length
      (((List.range n).map (surfaceRead lib meshes (cornersMade (lib.merge meshes) records).2)).map USurface.toMSurface) := by
  intro s hs v c hc
  obtain ⟨u, hu, rfl⟩ := List.mem_map.1 hs
  obtain ⟨k, _, rfl⟩ := List.mem_map.1 hu
  exact made_lt hm hc

/-- **Every vertex of every surface of a loaded file has a unique vertex at its place**: that of a corner near it, that of a vertex of a line at its place, or
one that no line has. -/
theorem whole_vertices {lib : Library D} {near : Pt D → Pt D → Prop} {f : File} (hf : f.length ≤ W) {w : Whole D} (h : loadWhole lib f = .ok w)
    (hm : Merges near (lib.merge w.model.meshes)) {F : Mesh D} (hF : F ∈ w.model.meshes) {v : Nat} {p : Pt D} (hv : F.2.1[v]? = some p) :
    ∃ u, uniqueOf w.built F.1 v = some u ∧
      ((∃ q, w.corners[u]? = some q ∧ near p q) ∨
       (∃ q, AtLine w.built.lines w.built.vertices u (some q) ∧ (q = p ∨ lib.close w.model.meshes q p = true)) ∨
       nbUniques w.corners.length w.built.lines ≤ u) := by
  obtain ⟨records, starts, h1, h2, h3, h4⟩ := load_parts h
  obtain ⟨g, g', st, T, _, e1, e2, e3, e4, e5, _, e6⟩ := files_parts h1 h2
  have hW : ∀ x ∈ T, x.1.points.length ≤ W := fun x hx => by have := data_points e4 x hx; omega
  obtain ⟨_, hnum, _⟩ := readData_surfaces e3 e4
  have hd := faces_distinct e1
  have hn : (w.model.meshes.map Prod.fst).Nodup := by rw [hnum]; exact hd.1
  have hlt : F.1 < w.model.surfaces.length := by
    rw [e6]
    refine hd.2 _ ?_
    rw [← hnum]
    exact List.mem_map_of_mem hF
  have hk := corners_known lib w.model.meshes hm records w.model.surfaces.length
  rw [← h3] at hk
  have hs : ((List.range w.model.surfaces.length).map (surfaceRead lib w.model.meshes (cornersMade (lib.merge w.model.meshes) records).2))[F.1]? =
      some (surfaceRead lib w.model.meshes (cornersMade (lib.merge w.model.meshes) records).2 F.1) := by
    rw [List.getElem?_map, List.getElem?_range hlt]
    rfl
  have hmesh := meshOf_mem hn hF
  have hnb : v < (surfaceRead lib w.model.meshes (cornersMade (lib.merge w.model.meshes) records).2 F.1).nb := by
    show v < (meshOf w.model.meshes F.1).1.length
    rw [hmesh]
    exact (List.getElem?_eq_some_iff.1 hv).1
  have hpt : (surfaceRead lib w.model.meshes (cornersMade (lib.merge w.model.meshes) records).2 F.1).point v = some p := by
    show (meshOf w.model.meshes F.1).1[v]? = some p
    rw [hmesh]
    exact hv
  obtain ⟨u, hu, hc⟩ := vertices_placed hk h4 hs hnb
  refine ⟨u, hu, ?_⟩
  rw [hpt] at hc
  rcases hc with hc | ⟨q, ha, hq⟩ | ⟨hc, _⟩
  · left
    obtain ⟨p', hp'⟩ := corners_only hc
    obtain ⟨G, hG, hG1, hG2, k, q, hk1, hk2, hk3⟩ := corners_placed hm e1 e3 e4 hW e5 _ hp'
    have : G = F := List.inj_on_of_nodup_map hn hG hF hG1
    subst this
    rw [hv] at hG2
    cases hG2
    have hku : some k = some u := hk1.symm.trans hc
    cases hku
    exact ⟨q, by rw [h3]; exact hk2, hk3⟩
  · right; left
    rcases hq with rfl | hq
    · exact ⟨p, ha, .inl rfl⟩
    · cases q with
      | none => simp [closeAt] at hq
      | some q => exact ⟨q, ha, .inr hq⟩
  · exact .inr (.inr hc)

/-- Every corner made ends a line. -/
theorem whole_corners {lib : Library D} {near : Pt D → Pt D → Prop} {f : File} {w : Whole D} (h : loadWhole lib f = .ok w)
    (hm : Merges near (lib.merge w.model.meshes)) : ∀ c < w.corners.length, EndsLine w.built.lines c := by
  obtain ⟨records, starts, h1, h2, h3, h4⟩ := load_parts h
  have hk := corners_known lib w.model.meshes hm records w.model.surfaces.length
  rw [← h3] at hk
  exact corners_end_lines hk h4

/-- Only corners and lines join vertices of surfaces: two vertices with one unique vertex are the same vertex, or each is near a corner or at a vertex of a
line. -/
theorem whole_merged {lib : Library D} {near : Pt D → Pt D → Prop} {f : File} (hf : f.length ≤ W) {w : Whole D} (h : loadWhole lib f = .ok w)
    (hm : Merges near (lib.merge w.model.meshes)) {F G : Mesh D} (hF : F ∈ w.model.meshes) (hG : G ∈ w.model.meshes) {v v' : Nat} {p p' : Pt D}
    (hv : F.2.1[v]? = some p) (hv' : G.2.1[v']? = some p') {u : Nat} (hu : uniqueOf w.built F.1 v = some u) (hu' : uniqueOf w.built G.1 v' = some u) :
    (F = G ∧ v = v') ∨
    (((∃ q, w.corners[u]? = some q ∧ near p q) ∨ ∃ q, AtLine w.built.lines w.built.vertices u (some q) ∧ (q = p ∨ lib.close w.model.meshes q p = true)) ∧
     ((∃ q, w.corners[u]? = some q ∧ near p' q) ∨ ∃ q, AtLine w.built.lines w.built.vertices u (some q) ∧ (q = p' ∨ lib.close w.model.meshes q p' = true))) := by
  obtain ⟨records, starts, h1, h2, h3, h4⟩ := load_parts h
  obtain ⟨g, g', st, T, _, e1, e2, e3, e4, e5, _, e6⟩ := files_parts h1 h2
  obtain ⟨_, hnum, _⟩ := readData_surfaces e3 e4
  have hd := faces_distinct e1
  have hn : (w.model.meshes.map Prod.fst).Nodup := by rw [hnum]; exact hd.1
  have hlt : ∀ F ∈ w.model.meshes, F.1 < w.model.surfaces.length := by
    intro F hF
    rw [e6]
    refine hd.2 _ ?_
    rw [← hnum]
    exact List.mem_map_of_mem hF
  have hk := corners_known lib w.model.meshes hm records w.model.surfaces.length
  rw [← h3] at hk
  have hs : ∀ F ∈ w.model.meshes, ((List.range w.model.surfaces.length).map (surfaceRead lib w.model.meshes (cornersMade (lib.merge w.model.meshes) records).2))[F.1]? =
      some (surfaceRead lib w.model.meshes (cornersMade (lib.merge w.model.meshes) records).2 F.1) := by
    intro F hF
    rw [List.getElem?_map, List.getElem?_range (hlt F hF)]
    rfl
  have hnb : ∀ {F : Mesh D} {v : Nat} {p : Pt D}, F ∈ w.model.meshes → F.2.1[v]? = some p →
      v < (surfaceRead lib w.model.meshes (cornersMade (lib.merge w.model.meshes) records).2 F.1).nb := by
    intro F v p hF hv
    show v < (meshOf w.model.meshes F.1).1.length
    rw [meshOf_mem hn hF]
    exact (List.getElem?_eq_some_iff.1 hv).1
  by_cases hb : nbUniques w.corners.length w.built.lines ≤ u
  · obtain ⟨a1, a2⟩ := own_vertices hk h4 (hs F hF) (hnb hF hv) (hs G hG) (hnb hG hv') hb hu hu'
    exact .inl ⟨List.inj_on_of_nodup_map hn hF hG a1, a2⟩
  · right
    obtain ⟨x, hx, hx1⟩ := whole_vertices hf h hm hF hv
    obtain ⟨y, hy, hy1⟩ := whole_vertices hf h hm hG hv'
    rw [hu] at hx
    rw [hu'] at hy
    cases hx
    cases hy
    refine ⟨?_, ?_⟩
    · rcases hx1 with hx1 | hx1 | hx1
      · exact .inl hx1
      · exact .inr hx1
      · exact absurd hx1 hb
    · rcases hy1 with hy1 | hy1 | hy1
      · exact .inl hy1
      · exact .inr hy1
      · exact absurd hy1 hb

/-! ## Save and load -/

/-- The line starts of a surface, as they are computed. -/
def startsFor (lib : Library D) (corners : Nat → List Nat) (s : Surface D) : List (Nat × Nat) :=
  match surfaceStarts (lib.border s.triangles).2 (corners s.id) with
  | .ok x => x
  | _ => []

/-- A model with its line starts. -/
def withStarts (lib : Library D) (corners : Nat → List Nat) (m : Ml.Model D) : Ml.Model D :=
  { m with surfaces := m.surfaces.map fun s => { s with starts := startsFor lib corners s } }

/-- The borders of the surfaces of a model: one loop that goes once through a vertex, with at least one corner. -/
structure GoodBorders (lib : Library D) (corners : Nat → List Nat) (s : Surface D) : Prop where
  fwd : NextOk (lib.border s.triangles).1
  back : NextOk (lib.border s.triangles).2
  loop : OneLoop (lib.border s.triangles).2
  simple : Simple (lib.border s.triangles).2
  range : ∀ e ∈ (lib.border s.triangles).2.ends, e.1 < s.points.length ∧ e.2 < s.points.length
  corner : ∃ e ∈ (lib.border s.triangles).2.ends, e.1 ∈ corners s.id

theorem startsFor_eq {lib : Library D} {corners : Nat → List Nat} {s : Surface D} (g : GoodBorders lib corners s) :
    surfaceStarts (lib.border s.triangles).2 (corners s.id) = .ok (startsFor lib corners s) ∧
    (∀ e, e ∈ startsFor lib corners s ↔ e ∈ (lib.border s.triangles).2.ends ∧ e.1 ∈ corners s.id) ∧ (startsFor lib corners s).Nodup := by
  obtain ⟨starts, h1, h2, h3⟩ := starts_complete_partial g.back g.loop (List.Nodup.of_map _ g.simple) (corners s.id)
  have : startsFor lib corners s = starts := by unfold startsFor; rw [h1]
  rw [this]
  exact ⟨h1, h2, h3⟩

theorem saveWhole_eq {lib : Library D} {corners : Nat → List Nat} {m : Ml.Model D} (g : ∀ s ∈ m.surfaces, GoodBorders lib corners s) (sides : Sides.AllSides) :
    saveWhole lib corners m sides = saveMl (withStarts lib corners m) sides := by
  have : ∀ ss : List (Surface D), (∀ s ∈ ss, GoodBorders lib corners s) →
      Res.mapM' (startsOf lib corners) ss = .ok (ss.map fun s => { s with starts := startsFor lib corners s }) := by
    intro ss
    induction ss with
    | nil => intro _; rfl
    | cons s ss ih =>
      intro h
      rw [mapM'_cons, ih fun t ht => h t (List.mem_cons_of_mem _ ht)]
      unfold startsOf
      rw [(startsFor_eq (h s (by simp))).1]
      rfl
  unfold saveWhole
  rw [this _ g]
  rfl

theorem withStarts_unclassified (lib : Library D) (corners : Nat → List Nat) (m : Ml.Model D) :
    unclassified (withStarts lib corners m) = (unclassified m).map fun s => { s with starts := startsFor lib corners s } := by
  unfold unclassified withStarts
  simp only
  rw [List.filter_map]
  rfl

theorem withStarts_order (lib : Library D) (corners : Nat → List Nat) (m : Ml.Model D) : order (withStarts lib corners m) = order m := by
  unfold order
  rw [withStarts_unclassified, List.map_map]
  rfl

theorem withStarts_good {lib : Library D} {corners : Nat → List Nat} {m : Ml.Model D} {sides : Sides.AllSides} (g : GoodModel m sides)
    (gb : ∀ s ∈ m.surfaces, GoodBorders lib corners s) : GoodModel (withStarts lib corners m) sides where
  name := g.name
  meshes := by
    intro s hs
    obtain ⟨t, ht, rfl⟩ := List.mem_map.1 hs
    refine ⟨(g.meshes t ht).some, (g.meshes t ht).tris, ?_⟩
    intro e he
    exact (gb t ht).range e (((startsFor_eq (gb t ht)).2.1 e).1 he).1
  ids := by
    have := g.ids
    unfold withStarts
    simp only [List.map_map]
    exact this
  once := by rw [withStarts_order]; exact g.once
  known := by
    rw [withStarts_order]
    intro i hi
    have := g.known i hi
    unfold withStarts
    simp only [List.map_map]
    exact this
  faultNames := g.faultNames
  horizonNames := g.horizonNames
  names := by
    have : tsurfNames (withStarts lib corners m) = tsurfNames m := by
      unfold tsurfNames
      rw [withStarts_unclassified, List.map_map]
      rfl
    rw [this]
    exact g.names
  distinct := by
    have : tsurfNames (withStarts lib corners m) = tsurfNames m := by
      unfold tsurfNames
      rw [withStarts_unclassified, List.map_map]
      rfl
    rw [this]
    exact g.distinct
  boundaryItems := g.boundaryItems
  faultItems := g.faultItems
  horizonItems := g.horizonItems
  contacts := g.contacts
  outside := g.outside
  blocks := by rw [withStarts_order]; exact g.blocks
  units := g.units
  faultBlocks := g.faultBlocks
  size := by rw [withStarts_order]; exact g.size
  points := by
    have : nbPoints (withStarts lib corners m).surfaces = nbPoints m.surfaces := by
      unfold nbPoints withStarts
      simp only [List.map_map]
      rfl
    rw [this]
    exact g.points

theorem withStarts_at (lib : Library D) (corners : Nat → List Nat) {m : Ml.Model D} {i : Nat} (h : i ∈ m.surfaces.map Surface.id) :
    surfaceAt (withStarts lib corners m) i = { surfaceAt m i with starts := startsFor lib corners (surfaceAt m i) } := by
  unfold surfaceAt withStarts
  simp only
  rw [List.find?_map]
  cases hf : m.surfaces.find? fun s => decide (s.id = i) with
  | none =>
    obtain ⟨s, hs, e⟩ := List.mem_map.1 h
    have := List.find?_eq_none.1 hf s hs
    simp [e] at this
  | some s =>
    have : (m.surfaces.find? ((fun s => decide (s.id = i)) ∘ fun s : Surface D => { s with starts := startsFor lib corners s })) = some s := hf
    rw [this]
    rfl

theorem allStarts_written (f : Nat → Nat) : ∀ (T : List (Coll D)), (∀ t ∈ T, (∀ s ∈ t.items, GoodSurface s) ∧ 1 + nbPoints t.items ≤ W) →
    allStarts (T.map fun t => (dataOf t.name t.items, (t.items.map Surface.id).map f)) =
      .ok ((T.flatMap Coll.items).flatMap fun s => s.starts.map fun e => (f s.id, e))
  | [], _ => rfl
  | t :: T, h => by
    obtain ⟨h1, h2⟩ := h t List.mem_cons_self
    obtain ⟨_, _, _, g3⟩ := stones_dataOf t.name h1 h2 ((t.items.map Surface.id).map f) (by simp)
    have e : (savedStones ((t.items.map Surface.id).map f) t.items).map (fun x => (x.1, x.2.2)) = t.items.flatMap fun s => s.starts.map fun e => (f s.id, e) := by
      unfold savedStones
      generalize t.items = ss
      induction ss with
      | nil => rfl
      | cons s ss ih =>
        rw [List.map_cons, List.map_cons, List.zip_cons_cons, List.flatMap_cons, List.map_append, ih, List.map_map, List.flatMap_cons]
        rfl
    rw [List.map_cons, allStarts, g3, ok_bind, allStarts_written f T fun t ht => h t (List.mem_cons_of_mem _ ht), ok_bind, e, List.flatMap_cons, List.flatMap_append]
    rfl

theorem items_all {m : Ml.Model D} {sides : Sides.AllSides} (g : GoodModel m sides) : (tsurfsOf m (collsOf m)).flatMap Coll.items = (order m).map (surfaceAt m) := by
  rw [← idsOf_model g]
  unfold idsOf
  rw [List.map_flatMap]
  have : ∀ T : List (Coll D), (∀ t ∈ T, ∀ s ∈ t.items, s ∈ m.surfaces) → T.flatMap Coll.items = T.flatMap fun t => (t.items.map Surface.id).map (surfaceAt m) := by
    intro T
    induction T with
    | nil => intro _; rfl
    | cons t T ih =>
      intro h
      rw [List.flatMap_cons, List.flatMap_cons, ih fun t' ht' => h t' (List.mem_cons_of_mem _ ht'), List.map_map]
      congr 1
      refine (List.map_id _).symm.trans (List.map_congr_left fun s hs => ?_)
      exact (surfaceAt_self g.ids (h t (by simp) s hs)).symm
  exact this _ fun t ht s hs => items_good g ht hs

/-- Everything read from the file of a model: the meshes, the records of corners and the line starts. -/
theorem model_file [LawfulNum D] (hp : PlainNumbers D) {m : Ml.Model D} {sides : Sides.AllSides} (g : GoodModel m sides) :
    ∃ (f : File) (L : Ml.Loaded D) (records : List (Pt D × Nat × Nat)), saveMl m sides = .ok f ∧ loadMl f = .ok L ∧ Kept m L ∧
      loadCorners f = .ok (records, (order m).flatMap fun i => (surfaceAt m i).starts.map fun e => (rank m i, e)) ∧
      ∀ p r v, (p, r, v) ∈ records ↔ ∃ i ∈ order m, r = rank m i ∧ ∃ w q, (v, w) ∈ (surfaceAt m i).starts ∧ (surfaceAt m i).points[v]? = some q ∧ p = q.round := by
  obtain ⟨f, L, hs, hl, hk⟩ := round_trip hp g
  obtain ⟨ls, st, h1, h2, h3⟩ := components_read hp g
  have hw := writeModelSurfaces_model g
  have hgood : ∀ t ∈ tsurfsOf m (collsOf m), (∀ s ∈ t.items, GoodSurface s) ∧ 1 + nbPoints t.items ≤ W := fun t ht =>
    ⟨fun s hs => g.meshes s (items_good g ht hs), coll_points g ht⟩
  have hd := readData_written (rank m) (tsurfsOf m (collsOf m)) (fun t ht =>
    ⟨(colls_good g ht).2.1, (colls_good g ht).2.2, (hgood t ht).1, (hgood t ht).2⟩)
  obtain ⟨records, starts, e1, e2, e3, e4⟩ := all_written (rank m) (tsurfsOf m (collsOf m)) hgood
  have e2' := allStarts_written (rank m) (tsurfsOf m (collsOf m)) hgood
  rw [items_all g, List.flatMap_map] at e2'
  refine ⟨f, L, records, hs, hl, hk, ?_, ?_⟩
  · have hf : f = [cs!"GOCAD Model3d 1"] ++ writeHeader m.name ++ writeCrs {} ++ ls ++ (tsurfsOf m (collsOf m)).flatMap fun t => writeTSurf t.kind t.name t.items := by
      unfold saveMl at hs
      rw [h1, hw] at hs
      exact (Res.ok.inj hs).symm
    rw [hf]
    unfold loadCorners
    have e : [cs!"GOCAD Model3d 1"] ++ writeHeader m.name ++ writeCrs {} ++ ls ++ (tsurfsOf m (collsOf m)).flatMap (fun t => writeTSurf t.kind t.name t.items) =
        cs!"GOCAD Model3d 1" :: (writeHeader m.name ++ (writeCrs {} ++ (ls ++ (tsurfsOf m (collsOf m)).flatMap fun t => writeTSurf t.kind t.name t.items))) := by simp
    rw [e, gotoKeyword_here (by rfl), Res.ok_bind]
    simp only
    rw [readHeader_good g.name, Res.ok_bind]
    simp only
    rw [readCrs_default, Res.ok_bind]
    simp only
    rw [h3, Res.ok_bind]
    simp only
    rw [h2.tsurfs, hd, ok_bind, e1, ok_bind, e2', ok_bind]
    show Res.ok _ = _
    congr 2
    refine List.flatMap_congr ?_
    intro i hi
    rw [surfaceAt_id (g.known i hi)]
  · intro p r v
    rw [e3]
    have hit : ∀ s, (∃ t ∈ tsurfsOf m (collsOf m), s ∈ t.items) ↔ ∃ i ∈ order m, surfaceAt m i = s := by
      intro s
      have := items_all g
      constructor
      · rintro ⟨t, ht, hs⟩
        have hm : s ∈ (order m).map (surfaceAt m) := by rw [← this]; exact List.mem_flatMap.2 ⟨t, ht, hs⟩
        obtain ⟨i, hi, e⟩ := List.mem_map.1 hm
        exact ⟨i, hi, e⟩
      · rintro ⟨i, hi, e⟩
        have hm : s ∈ (order m).map (surfaceAt m) := List.mem_map.2 ⟨i, hi, e⟩
        rw [← this] at hm
        exact List.mem_flatMap.1 hm
    constructor
    · rintro ⟨t, ht, s, hs, hr, hh⟩
      obtain ⟨i, hi, e⟩ := (hit s).1 ⟨t, ht, hs⟩
      subst e
      exact ⟨i, hi, by rw [hr, surfaceAt_id (g.known i hi)], hh⟩
    · rintro ⟨i, hi, hr, hh⟩
      obtain ⟨t, ht, hs⟩ := (hit (surfaceAt m i)).2 ⟨i, hi, rfl⟩
      exact ⟨t, ht, _, hs, by rw [hr, surfaceAt_id (g.known i hi)], hh⟩

/-- The meshes in the file of a model: the points are those of the text. -/
def meshesOf (m : Ml.Model D) : List (Mesh D) := (order m).map fun i => (rank m i, (surfaceAt m i).points.map Pt.round, (surfaceAt m i).triangles)

theorem kept_withStarts {lib : Library D} {corners : Nat → List Nat} {m : Ml.Model D} {sides : Sides.AllSides} (g : GoodModel m sides) {L : Ml.Loaded D}
    (h : Kept (withStarts lib corners m) L) : Kept m L := by
  have hr : rank (withStarts lib corners m) = rank m := by funext i; unfold rank; rw [withStarts_order]
  have hu := withStarts_unclassified lib corners m
  refine ⟨h.name, ?_, ?_, ?_, ?_, ?_, ?_, h.units, h.faultBlocks, ?_⟩
  · rw [h.count, withStarts_order]
  · rw [h.surfaceNames, hu]
    simp only [List.map_map]
    rfl
  · rw [h.boundaries, hr, hu]
    simp only [List.map_map, List.isEmpty_map]
    rfl
  · rw [h.faults, hr]; rfl
  · rw [h.horizons, hr]; rfl
  · rw [← hr]; exact h.blocks
  · rw [h.meshes, withStarts_order, hr]
    refine List.map_congr_left fun i hi => ?_
    rw [withStarts_at lib corners (g.known i hi)]

/-- A vertex of a mesh is at a point. -/
def At (close : Pt D → Pt D → Bool) (points : List (Pt D)) (q : Pt D) (v : Nat) : Prop := ∃ p, points[v]? = some p ∧ (q = p ∨ close q p = true)

/-- No three border edges of a surface are between the same two points. -/
def EdgesApart (close : Pt D → Pt D → Bool) (points : List (Pt D)) (ends : List (Nat × Nat)) : Prop :=
  ∀ q r, ∀ a ∈ ends, ∀ b ∈ ends, ∀ c ∈ ends,
    (∀ e ∈ [a, b, c], (At close points q e.1 ∧ At close points r e.2) ∨ (At close points r e.1 ∧ At close points q e.2)) → a = b ∨ a = c ∨ b = c

theorem nodup_starts [LawfulNum D] {m : Ml.Model D} {sides : Sides.AllSides} (g : GoodModel m sides) (hn : ∀ i ∈ order m, (surfaceAt m i).starts.Nodup) :
    ((order m).flatMap fun i => (surfaceAt m i).starts.map fun e => (rank m i, e)).Nodup := by
  have key : ∀ l : List Nat, l.Nodup → (∀ i ∈ l, i ∈ order m) → (l.flatMap fun i => (surfaceAt m i).starts.map fun e => (rank m i, e)).Nodup := by
    intro l
    induction l with
    | nil => intro _ _; exact List.nodup_nil
    | cons i l ih =>
      intro hnd hin
      rw [List.nodup_cons] at hnd
      rw [List.flatMap_cons, List.nodup_append']
      refine ⟨List.Nodup.map (fun a b h => (Prod.mk.inj h).2) (hn i (hin i (by simp))), ih hnd.2 fun j hj => hin j (List.mem_cons_of_mem _ hj), ?_⟩
      intro x hx hx'
      obtain ⟨e, _, rfl⟩ := List.mem_map.1 hx
      obtain ⟨j, hj, hx'⟩ := List.mem_flatMap.1 hx'
      obtain ⟨e', _, he⟩ := List.mem_map.1 hx'
      have := rank_inj (hin j (List.mem_cons_of_mem _ hj)) (hin i (by simp)) (Prod.mk.inj he).1
      subst this
      exact hnd.1 hj
  exact key _ g.once fun _ h => h

/-- Every point left by the merging is that of a point given. -/
def Onto {P : Type} (merge : Merge P) : Prop := ∀ (ps : List P) (k : Nat), k < (merge ps).1.length → k ∈ (merge ps).2

theorem corner_index {P : Type} {near : P → P → Prop} {merge : Merge P} (hm : Merges near merge) {records : List (P × Nat × Nat)}
    (hc : ∀ r ∈ records, ∀ r' ∈ records, r.2 = r'.2 → r.1 = r'.1) {j : Nat} {p : P} {s v c : Nat} (hr : records[j]? = some (p, s, v))
    (hj : (merge (records.map Prod.fst)).2[j]? = some c) : cornerAt (cornersMade merge records).2 s v = some c := by
  obtain ⟨k, q, hk, _, _⟩ := corners_given hm hc (List.mem_of_getElem? hr)
  obtain ⟨j', hj1, hj2⟩ := zip_mem (cornerAt_mem hk)
  rw [List.getElem?_map] at hj1
  obtain ⟨r, hrj, hr2⟩ := Option.map_eq_some_iff.1 hj1
  have hp : r.1 = p := hc r (List.mem_of_getElem? hrj) (p, s, v) (List.mem_of_getElem? hr) hr2
  have h1 : (records.map Prod.fst)[j']? = some p := by rw [List.getElem?_map, hrj, ← hp]; rfl
  have h2 : (records.map Prod.fst)[j]? = some p := by rw [List.getElem?_map, hr]; rfl
  rw [hk, ← hj, ← hm.same _ j' j p h1 h2]
  exact hj2.symm

/-- What is read of a model, one surface after the other. -/
structure FileFacts (lib : Library D) (near : Pt D → Pt D → Prop) (corners : Nat → List Nat) (m : Ml.Model D) (L : Ml.Loaded D) (records : List (Pt D × Nat × Nat))
    (starts : List (Nat × Nat × Nat)) : Prop where
  known : CornersKnown (cornersMade (lib.merge L.meshes) records).1.length
    (((List.range L.surfaces.length).map (surfaceRead lib L.meshes (cornersMade (lib.merge L.meshes) records).2)).map USurface.toMSurface)
  nodup : starts.Nodup
  surface : ∀ i ∈ order m, ((List.range L.surfaces.length).map (surfaceRead lib L.meshes (cornersMade (lib.merge L.meshes) records).2))[rank m i]? =
    some (surfaceRead lib L.meshes (cornersMade (lib.merge L.meshes) records).2 (rank m i))
  mesh : ∀ i ∈ order m, meshOf L.meshes (rank m i) = ((surfaceAt m i).points.map Pt.round, (surfaceAt m i).triangles)
  starts : ∀ x, x ∈ starts ↔ ∃ i ∈ order m, x.1 = rank m i ∧ x.2 ∈ startsFor lib corners (surfaceAt m i)
  marked : ∀ i ∈ order m, ∀ v, (cornerAt (cornersMade (lib.merge L.meshes) records).2 (rank m i) v).isSome = true ↔
    ∃ w, (v, w) ∈ startsFor lib corners (surfaceAt m i)
  ended : Onto (lib.merge L.meshes) → ∀ c < (cornersMade (lib.merge L.meshes) records).1.length, ∃ i ∈ order m, ∃ e ∈ startsFor lib corners (surfaceAt m i),
    cornerAt (cornersMade (lib.merge L.meshes) records).2 (rank m i) e.1 = some c

theorem file_facts [LawfulNum D] (hp : PlainNumbers D) {lib : Library D} {near : Pt D → Pt D → Prop} {corners : Nat → List Nat} {m : Ml.Model D}
    {sides : Sides.AllSides} (g : GoodModel m sides) (gb : ∀ s ∈ m.surfaces, GoodBorders lib corners s) (hm : Merges near (lib.merge (meshesOf m))) :
    ∃ (f : File) (L : Ml.Loaded D) (records : List (Pt D × Nat × Nat)) (starts : List (Nat × Nat × Nat)), saveWhole lib corners m sides = .ok f ∧
      loadMl f = .ok L ∧ Kept m L ∧ loadCorners f = .ok (records, starts) ∧ FileFacts lib near corners m L records starts := by
  obtain ⟨f, L, records, h1, h2, h3, h4, h5⟩ := model_file hp (withStarts_good g gb)
  have hk := kept_withStarts g h3
  have hr : rank (withStarts lib corners m) = rank m := by funext i; unfold rank; rw [withStarts_order]
  rw [withStarts_order, hr] at h4
  rw [withStarts_order, hr] at h5
  have hin : ∀ i ∈ order m, surfaceAt m i ∈ m.surfaces := fun i hi => surfaceAt_mem (g.known i hi)
  have hst : ∀ i ∈ order m, (surfaceAt (withStarts lib corners m) i).starts = startsFor lib corners (surfaceAt m i) := fun i hi => by
    rw [withStarts_at lib corners (g.known i hi)]
  have hpt : ∀ i ∈ order m, (surfaceAt (withStarts lib corners m) i).points = (surfaceAt m i).points := fun i hi => by
    rw [withStarts_at lib corners (g.known i hi)]
  have hmesh : L.meshes = meshesOf m := hk.meshes
  have hnum : (L.meshes.map Prod.fst).Nodup := by
    rw [hmesh]
    unfold meshesOf
    rw [List.map_map]
    exact List.Nodup.map_on (fun a ha b hb e => rank_inj ha hb e) g.once
  have hc : ∀ r ∈ records, ∀ r' ∈ records, r.2 = r'.2 → r.1 = r'.1 := by
    rintro ⟨p, n, v⟩ hr1 ⟨p', n', v'⟩ hr2 e
    cases e
    obtain ⟨i, hi, e1, w, q, _, a2, a3⟩ := (h5 _ _ _).1 hr1
    obtain ⟨j, hj, e2, w', q', _, b2, b3⟩ := (h5 _ _ _).1 hr2
    have := rank_inj hi hj (e1.symm.trans e2)
    subst this
    rw [a2] at b2
    cases b2
    exact a3.trans b3.symm
  refine ⟨f, L, records, _, by rw [saveWhole_eq gb]; exact h1, h2, hk, h4, ?_, ?_, ?_, ?_, ?_, ?_, ?_⟩
  · exact corners_known lib L.meshes (near := near) (by rw [hmesh]; exact hm) records _
  · have := nodup_starts (withStarts_good g gb) (fun i hi => by
      rw [withStarts_order] at hi
      rw [hst i hi]
      exact (startsFor_eq (gb _ (hin i hi))).2.2)
    rw [withStarts_order, hr] at this
    exact this
  · intro i hi
    have : rank m i < L.surfaces.length := by rw [hk.count]; exact List.idxOf_lt_length_iff.2 hi
    rw [List.getElem?_map, List.getElem?_range this]
    rfl
  · intro i hi
    have : (rank m i, (surfaceAt m i).points.map Pt.round, (surfaceAt m i).triangles) ∈ L.meshes := by
      rw [hmesh]
      exact List.mem_map.2 ⟨i, hi, rfl⟩
    exact meshOf_mem hnum this
  · intro x
    rw [List.mem_flatMap]
    constructor
    · rintro ⟨i, hi, hx⟩
      obtain ⟨e, he, rfl⟩ := List.mem_map.1 hx
      rw [hst i hi] at he
      exact ⟨i, hi, rfl, he⟩
    · rintro ⟨i, hi, hx, he⟩
      refine ⟨i, hi, List.mem_map.2 ⟨x.2, by rw [hst i hi]; exact he, ?_⟩⟩
      rw [← hx]
  · intro i hi v
    constructor
    · intro h
      obtain ⟨k, hk'⟩ := Option.isSome_iff_exists.1 h
      obtain ⟨p, hp'⟩ := corners_only hk'
      obtain ⟨j, hj, e, w, q, a1, _⟩ := (h5 _ _ _).1 hp'
      have := rank_inj hi hj e
      subst this
      rw [hst i hi] at a1
      exact ⟨w, a1⟩
    · rintro ⟨w, hw⟩
      have hlt := ((gb _ (hin i hi)).range _ (((startsFor_eq (gb _ (hin i hi))).2.1 _).1 hw).1).1
      have hrec : (((surfaceAt m i).points[v]).round, rank m i, v) ∈ records :=
        (h5 _ _ _).2 ⟨i, hi, rfl, w, _, by rw [hst i hi]; exact hw, by rw [hpt i hi]; exact List.getElem?_eq_getElem hlt, rfl⟩
      obtain ⟨k, q, hk', _⟩ := corners_given (near := near) (merge := lib.merge L.meshes) (by rw [hmesh]; exact hm) hc hrec
      rw [hk']
      rfl
  · intro ho c hcl
    obtain ⟨j, hj⟩ := List.getElem?_of_mem (ho (records.map Prod.fst) c hcl)
    have hjl : j < records.length := by
      have := (List.getElem?_eq_some_iff.1 hj).1
      rwa [(show Merges near (lib.merge L.meshes) by rw [hmesh]; exact hm).length, List.length_map] at this
    obtain ⟨⟨p, n, v⟩, hr'⟩ : ∃ r, records[j]? = some r := ⟨_, List.getElem?_eq_getElem hjl⟩
    obtain ⟨i, hi, e1, w, q, a1, _⟩ := (h5 _ _ _).1 (List.mem_of_getElem? hr')
    rw [hst i hi] at a1
    refine ⟨i, hi, (v, w), a1, ?_⟩
    rw [← e1]
    exact corner_index (near := near) (by rw [hmesh]; exact hm) hc hr' hj

/-- The hypotheses on the border of a surface hold for what is read. -/
theorem good_border {lib : Library D} {near : Pt D → Pt D → Prop} {corners : Nat → List Nat} {m : Ml.Model D} {sides : Sides.AllSides} (g : GoodModel m sides)
    (gb : ∀ s ∈ m.surfaces, GoodBorders lib corners s) {L : Ml.Loaded D} {records : List (Pt D × Nat × Nat)} {starts : List (Nat × Nat × Nat)}
    (F : FileFacts lib near corners m L records starts) (hrefl : ∀ p, lib.close L.meshes p p = true) {i : Nat} (hi : i ∈ order m)
    (ha : EdgesApart (lib.close L.meshes) ((surfaceAt m i).points.map Pt.round) (lib.border (surfaceAt m i).triangles).2.ends) :
    GoodBorder (closeAt (lib.close L.meshes)) starts (rank m i) (surfaceRead lib L.meshes (cornersMade (lib.merge L.meshes) records).2 (rank m i)) := by
  have hs := gb _ (surfaceAt_mem (g.known i hi))
  have hback : (surfaceRead lib L.meshes (cornersMade (lib.merge L.meshes) records).2 (rank m i)).back = (lib.border (surfaceAt m i).triangles).2 := by
    show (lib.border (meshOf L.meshes (rank m i)).2).2 = _
    rw [F.mesh i hi]
  have hpoint : ∀ v, (surfaceRead lib L.meshes (cornersMade (lib.merge L.meshes) records).2 (rank m i)).point v = ((surfaceAt m i).points.map Pt.round)[v]? := by
    intro v
    show (meshOf L.meshes (rank m i)).1[v]? = _
    rw [F.mesh i hi]
  have hnb : (surfaceRead lib L.meshes (cornersMade (lib.merge L.meshes) records).2 (rank m i)).nb = (surfaceAt m i).points.length := by
    show (meshOf L.meshes (rank m i)).1.length = _
    rw [F.mesh i hi, List.length_map]
  have hst : ∀ x ∈ starts, x.1 = rank m i → x.2 ∈ startsFor lib corners (surfaceAt m i) := by
    intro x hx e
    obtain ⟨j, hj, e', h⟩ := (F.starts x).1 hx
    have := rank_inj hi hj (e.symm.trans e')
    subst this
    exact h
  refine ⟨by rw [hback]; exact hs.back, by rw [hback]; exact hs.simple, by rw [hback, hnb]; exact hs.range, ?_, ?_, ?_, ?_⟩
  · intro v
    rw [show ((surfaceRead lib L.meshes (cornersMade (lib.merge L.meshes) records).2 (rank m i)).corner v) =
      cornerAt (cornersMade (lib.merge L.meshes) records).2 (rank m i) v from rfl, F.marked i hi v, List.mem_map]
    constructor
    · rintro ⟨w, hw⟩
      exact ⟨(rank m i, v, w), List.mem_filter.2 ⟨(F.starts _).2 ⟨i, hi, rfl, hw⟩, by simp⟩, rfl⟩
    · rintro ⟨x, hx, rfl⟩
      obtain ⟨h1, h2⟩ := List.mem_filter.1 hx
      exact ⟨x.2.2, hst x h1 (by simpa using h2)⟩
  · intro x hx e
    rw [hback]
    exact (((startsFor_eq hs).2.1 _).1 (hst x hx e)).1
  · have hhere : ∀ {q : Option (Pt D)} {v : Nat}, v < (surfaceAt m i).points.length →
        Here (closeAt (lib.close L.meshes)) (surfaceRead lib L.meshes (cornersMade (lib.merge L.meshes) records).2 (rank m i)).toMSurface q v →
        ∃ q', q = some q' ∧ At (lib.close L.meshes) ((surfaceAt m i).points.map Pt.round) q' v := by
      intro q v hv h
      have hp : ((surfaceAt m i).points.map Pt.round)[v]? = some (((surfaceAt m i).points.map Pt.round)[v]'(by simpa using hv)) := List.getElem?_eq_getElem _
      unfold Here at h
      rw [hpoint v, hp] at h
      rcases h with h | h
      · exact ⟨_, h, _, hp, .inl rfl⟩
      · cases q with
        | none => simp [closeAt] at h
        | some q => exact ⟨q, rfl, _, hp, .inr h⟩
    intro q r a ha' b hb' c hc' ea eb ec
    rw [hback] at ha' hb' hc'
    have hedge : ∀ e ∈ (lib.border (surfaceAt m i).triangles).2.ends,
        EdgeAt (closeAt (lib.close L.meshes)) (surfaceRead lib L.meshes (cornersMade (lib.merge L.meshes) records).2 (rank m i)).toMSurface q r e →
        ∃ q' r', q = some q' ∧ r = some r' ∧ ((At (lib.close L.meshes) ((surfaceAt m i).points.map Pt.round) q' e.1 ∧
          At (lib.close L.meshes) ((surfaceAt m i).points.map Pt.round) r' e.2) ∨ (At (lib.close L.meshes) ((surfaceAt m i).points.map Pt.round) r' e.1 ∧
          At (lib.close L.meshes) ((surfaceAt m i).points.map Pt.round) q' e.2)) := by
      intro e he h
      obtain ⟨r1, r2⟩ := hs.range e he
      rcases h with ⟨h1, h2⟩ | ⟨h1, h2⟩
      · obtain ⟨q', e1, a1⟩ := hhere r1 h1
        obtain ⟨r', e2, a2⟩ := hhere r2 h2
        exact ⟨q', r', e1, e2, .inl ⟨a1, a2⟩⟩
      · obtain ⟨r', e1, a1⟩ := hhere r1 h1
        obtain ⟨q', e2, a2⟩ := hhere r2 h2
        exact ⟨q', r', e2, e1, .inr ⟨a1, a2⟩⟩
    obtain ⟨q', r', e1, e2, xa⟩ := hedge a ha' ea
    obtain ⟨q2, r2, e3, e4, xb⟩ := hedge b hb' eb
    obtain ⟨q3, r3, e5, e6, xc⟩ := hedge c hc' ec
    subst e1 e2
    cases e3
    cases e4
    cases e5
    cases e6
    refine ha q' r' a ha' b hb' c hc' ?_
    intro e he
    simp only [List.mem_cons, List.not_mem_nil, or_false] at he
    rcases he with rfl | rfl | rfl
    · exact xa
    · exact xb
    · exact xc
  · intro v hv
    rw [hpoint v]
    rw [hnb] at hv
    rw [List.getElem?_eq_getElem (by simpa using hv)]
    exact hrefl _

/-- The lines of the file of a model are read, and cover the borders. -/
theorem lines_ready {lib : Library D} {near : Pt D → Pt D → Prop} {corners : Nat → List Nat} {m : Ml.Model D} {sides : Sides.AllSides} (g : GoodModel m sides)
    (gb : ∀ s ∈ m.surfaces, GoodBorders lib corners s) {L : Ml.Loaded D} {records : List (Pt D × Nat × Nat)} {starts : List (Nat × Nat × Nat)}
    (F : FileFacts lib near corners m L records starts)
    (hB : ∀ i ∈ order m, GoodBorder (closeAt (lib.close L.meshes)) starts (rank m i)
      (surfaceRead lib L.meshes (cornersMade (lib.merge L.meshes) records).2 (rank m i))) :
    (∃ lines pieces, createLines (closeAt (lib.close L.meshes)) (((List.range L.surfaces.length).map
      (surfaceRead lib L.meshes (cornersMade (lib.merge L.meshes) records).2)).map USurface.toMSurface) starts = .ok (lines, pieces)) ∧
    ∀ i ∈ order m, ∀ e ∈ (lib.border (surfaceAt m i).triangles).2.ends, ∃ start ∈ startsFor lib corners (surfaceAt m i), ∃ d,
      computeLine (surfaceRead lib L.meshes (cornersMade (lib.merge L.meshes) records).2 (rank m i)).toMSurface start = .ok d ∧ e ∈ pairs d.indices := by
  have hback : ∀ i ∈ order m, lib.border (meshOf L.meshes (rank m i)).2 = lib.border (surfaceAt m i).triangles := fun i hi => by rw [F.mesh i hi]
  constructor
  · refine createLines_returns ?_
    intro x hx
    obtain ⟨i, hi, e, hst⟩ := (F.starts x).1 hx
    have hs := gb _ (surfaceAt_mem (g.known i hi))
    refine ⟨(surfaceRead lib L.meshes (cornersMade (lib.merge L.meshes) records).2 (rank m i)).toMSurface, ?_⟩
    have hc := (hB i hi).corners
    have hmem : x.2.1 ∈ (starts.filter fun x => decide (x.1 = rank m i)).map fun x => x.2.1 :=
      List.mem_map.2 ⟨x, List.mem_filter.2 ⟨hx, by simp [e]⟩, rfl⟩
    have hfwd : NextOk (surfaceRead lib L.meshes (cornersMade (lib.merge L.meshes) records).2 (rank m i)).fwd := by
      show NextOk (lib.border (meshOf L.meshes (rank m i)).2).1
      rw [hback i hi]
      exact hs.fwd
    rcases compute_line hfwd (hB i hi).next hc hmem with ⟨hno, _⟩ | ⟨d, hd, _⟩
    · exact absurd ((hB i hi).starts x hx e) hno
    · refine ⟨d, ?_, hd⟩
      rw [List.getElem?_map, e, F.surface i hi]
      rfl
  · intro i hi e he
    have hs := gb _ (surfaceAt_mem (g.known i hi))
    have hex : startsFor lib corners (surfaceAt m i) ≠ [] := by
      obtain ⟨e, h1, h2⟩ := hs.corner
      intro hnil
      have := ((startsFor_eq hs).2.1 e).2 ⟨h1, h2⟩
      rw [hnil] at this
      simp at this
    have hb' : (surfaceRead lib L.meshes (cornersMade (lib.merge L.meshes) records).2 (rank m i)).back = (lib.border (surfaceAt m i).triangles).2 := by
      show (lib.border (meshOf L.meshes (rank m i)).2).2 = _
      rw [hback i hi]
    have hf' : (surfaceRead lib L.meshes (cornersMade (lib.merge L.meshes) records).2 (rank m i)).fwd = (lib.border (surfaceAt m i).triangles).1 := by
      show (lib.border (meshOf L.meshes (rank m i)).2).1 = _
      rw [hback i hi]
    have hca : CornersAre (surfaceRead lib L.meshes (cornersMade (lib.merge L.meshes) records).2 (rank m i)).toMSurface
        ((startsFor lib corners (surfaceAt m i)).map Prod.fst) := by
      intro v
      rw [show ((surfaceRead lib L.meshes (cornersMade (lib.merge L.meshes) records).2 (rank m i)).corner v) =
        cornerAt (cornersMade (lib.merge L.meshes) records).2 (rank m i) v from rfl, F.marked i hi v, List.mem_map]
      constructor
      · rintro ⟨w, hw⟩
        exact ⟨(v, w), hw, rfl⟩
      · rintro ⟨x, hx, rfl⟩
        exact ⟨x.2, hx⟩
    exact border_round_trip (s := (surfaceRead lib L.meshes (cornersMade (lib.merge L.meshes) records).2 (rank m i)).toMSurface)
      (by rw [hf']; exact hs.fwd) (by rw [hb']; exact hs.back) (by rw [hb']; exact hs.loop) (by rw [hb']; exact List.Nodup.of_map _ hs.simple)
      (corners := corners (surfaceAt m i).id) (starts := startsFor lib corners (surfaceAt m i)) (by rw [hb']; exact (startsFor_eq hs).1) hca hex e
      (by rw [hb']; exact he)

/-- The ends of the border edges of the surfaces of a model are next to each other on lines. -/
def BordersOnLines (lib : Library D) (m : Ml.Model D) (w : Whole D) : Prop :=
  ∀ i ∈ order m, ∀ e ∈ (lib.border (surfaceAt m i).triangles).2.ends, ∃ vs ∈ w.built.vertices, ∃ u1 u2,
    uniqueOf w.built (rank m i) e.1 = some u1 ∧ uniqueOf w.built (rank m i) e.2 = some u2 ∧ onLine vs (u1, u2) = true

/-- **Saving and loading a model keeps the borders of its surfaces on lines**: the file is read or refused; when it is read, the ends of every border edge of every
surface are next to each other on a line. -/
theorem borders_kept [LawfulNum D] (hp : PlainNumbers D) {lib : Library D} {near : Pt D → Pt D → Prop} {corners : Nat → List Nat} {m : Ml.Model D}
    {sides : Sides.AllSides} (g : GoodModel m sides) (gb : ∀ s ∈ m.surfaces, GoodBorders lib corners s) (hm : Merges near (lib.merge (meshesOf m)))
    (hrefl : ∀ p, lib.close (meshesOf m) p p = true)
    (ha : ∀ i ∈ order m, EdgesApart (lib.close (meshesOf m)) ((surfaceAt m i).points.map Pt.round) (lib.border (surfaceAt m i).triangles).2.ends) :
    ∃ f, saveWhole lib corners m sides = .ok f ∧ (loadWhole lib f = .throw ∨ ∃ w : Whole D, loadWhole lib f = .ok w ∧ Kept m w.model ∧ BordersOnLines lib m w) := by
  obtain ⟨f, L, records, starts, h1, h2, h3, h4, F⟩ := file_facts hp g gb hm
  have hmesh : L.meshes = meshesOf m := h3.meshes
  have hB : ∀ i ∈ order m, GoodBorder (closeAt (lib.close L.meshes)) starts (rank m i)
      (surfaceRead lib L.meshes (cornersMade (lib.merge L.meshes) records).2 (rank m i)) := fun i hi =>
    good_border g gb F (by rw [hmesh]; exact hrefl) hi (by rw [hmesh]; exact ha i hi)
  obtain ⟨⟨lines, pieces, hcl⟩, hcov⟩ := lines_ready g gb F hB
  refine ⟨f, h1, ?_⟩
  unfold loadWhole
  rw [h2, ok_bind, h4, ok_bind]
  rcases build_ok_or_throw F.known hcl with ⟨b, hb, _⟩ | ⟨ht, _⟩
  · right
    simp only [hb, ok_bind]
    refine ⟨_, rfl, h3, ?_⟩
    intro i hi e he
    obtain ⟨start, hstart, d, hd, hed⟩ := hcov i hi e he
    exact border_edges F.known F.nodup hb (F.surface i hi) (hB i hi) (x := (rank m i, start)) ((F.starts _).2 ⟨i, hi, rfl, hstart⟩) rfl hd hed
  · left
    simp only [ht, throw_bind]

/-- A vertex on the border of a surface. -/
def BorderVertex (lib : Library D) (s : Surface D) (v : Nat) : Prop := ∃ e ∈ (lib.border s.triangles).2.ends, e.1 = v ∨ e.2 = v

/-- A vertex of a surface that is no corner, and that is inside the surface or on a border with one corner. -/
def LooseVertex (lib : Library D) (corners : Nat → List Nat) (s : Surface D) (v : Nat) : Prop :=
  ¬(v ∈ corners s.id ∧ BorderVertex lib s v) ∧
    (¬BorderVertex lib s v ∨ ((lib.border s.triangles).2.ends.filter fun e => decide (e.1 ∈ corners s.id)).length < 2)

/-- At most one vertex on the border of a surface is at a point. -/
def OnePlace (lib : Library D) (m : Ml.Model D) (q : Pt D) : Prop :=
  ∀ i ∈ order m, ∀ j ∈ order m, ∀ v w p r, BorderVertex lib (surfaceAt m i) v → BorderVertex lib (surfaceAt m j) w →
    (surfaceAt m i).points[v]? = some p → (surfaceAt m j).points[w]? = some r → lib.close (meshesOf m) p.round q = true → lib.close (meshesOf m) r.round q = true →
    i = j ∧ v = w

/-- **A model whose surfaces meet along their borders only is loaded as it was saved**: neither saving nor loading fails, and the ends of every border edge of every
surface are next to each other on a line. -/
theorem models_loaded [LawfulNum D] (hp : PlainNumbers D) {lib : Library D} {near : Pt D → Pt D → Prop} {corners : Nat → List Nat} {m : Ml.Model D}
    {sides : Sides.AllSides} (g : GoodModel m sides) (gb : ∀ s ∈ m.surfaces, GoodBorders lib corners s) (hm : Merges near (lib.merge (meshesOf m)))
    (ho : Onto (lib.merge (meshesOf m))) (hrefl : ∀ p, lib.close (meshesOf m) p p = true)
    (ha : ∀ i ∈ order m, EdgesApart (lib.close (meshesOf m)) ((surfaceAt m i).points.map Pt.round) (lib.border (surfaceAt m i).triangles).2.ends)
    (hl : ∀ i ∈ order m, ∀ v q, (surfaceAt m i).points[v]? = some q → LooseVertex lib corners (surfaceAt m i) v → OnePlace lib m q.round) :
    ∃ f, saveWhole lib corners m sides = .ok f ∧ ∃ w : Whole D, loadWhole lib f = .ok w ∧ Kept m w.model ∧ BordersOnLines lib m w := by
  obtain ⟨f, L, records, starts, h1, h2, h3, h4, F⟩ := file_facts hp g gb hm
  have hmesh : L.meshes = meshesOf m := h3.meshes
  have hB : ∀ i ∈ order m, GoodBorder (closeAt (lib.close L.meshes)) starts (rank m i)
      (surfaceRead lib L.meshes (cornersMade (lib.merge L.meshes) records).2 (rank m i)) := fun i hi =>
    good_border g gb F (by rw [hmesh]; exact hrefl) hi (by rw [hmesh]; exact ha i hi)
  obtain ⟨⟨lines, pieces, hcl⟩, hcov⟩ := lines_ready g gb F hB
  have hall : ∀ (n : Nat) (s : USurface (Option (Pt D))), ((List.range L.surfaces.length).map
      (surfaceRead lib L.meshes (cornersMade (lib.merge L.meshes) records).2))[n]? = some s →
      ∃ i ∈ order m, n = rank m i ∧ s = surfaceRead lib L.meshes (cornersMade (lib.merge L.meshes) records).2 (rank m i) := by
    intro n s hs
    have hn : n < (order m).length := by
      have := (List.getElem?_eq_some_iff.1 hs).1
      rw [List.length_map, List.length_range, h3.count] at this
      exact this
    have hr : rank m (order m)[n] = n := g.once.idxOf_getElem n hn
    refine ⟨(order m)[n], List.getElem_mem hn, hr.symm, ?_⟩
    have := F.surface _ (List.getElem_mem hn)
    rw [hr] at this ⊢
    rw [hs] at this
    exact Option.some.inj this
  have hback : ∀ i ∈ order m, (surfaceRead lib L.meshes (cornersMade (lib.merge L.meshes) records).2 (rank m i)).back = (lib.border (surfaceAt m i).triangles).2 := by
    intro i hi
    show (lib.border (meshOf L.meshes (rank m i)).2).2 = _
    rw [F.mesh i hi]
  have hpoint : ∀ i ∈ order m, ∀ v, (surfaceRead lib L.meshes (cornersMade (lib.merge L.meshes) records).2 (rank m i)).point v =
      ((surfaceAt m i).points.map Pt.round)[v]? := by
    intro i hi v
    show (meshOf L.meshes (rank m i)).1[v]? = _
    rw [F.mesh i hi]
  have honb : ∀ i ∈ order m, ∀ v, OnBorder (surfaceRead lib L.meshes (cornersMade (lib.merge L.meshes) records).2 (rank m i)).toMSurface v ↔
      BorderVertex lib (surfaceAt m i) v := by
    intro i hi v
    unfold OnBorder BorderVertex
    rw [hback i hi]
  have hbuilt : ∃ b, MlLines.buildLines (closeAt (lib.close L.meshes)) (cornersMade (lib.merge L.meshes) records).1.length ((List.range L.surfaces.length).map
      (surfaceRead lib L.meshes (cornersMade (lib.merge L.meshes) records).2)) starts = .ok b := by
    refine build_ok F.known F.nodup hcl ?_ ?_ ?_ ?_
    · intro n s hs
      obtain ⟨i, hi, rfl, rfl⟩ := hall n s hs
      exact hB i hi
    · intro n s hs e he
      obtain ⟨i, hi, rfl, rfl⟩ := hall n s hs
      rw [hback i hi] at he
      obtain ⟨start, hstart, d, hd, hed⟩ := hcov i hi e he
      exact ⟨(rank m i, start), (F.starts _).2 ⟨i, hi, rfl, hstart⟩, rfl, d, hd, hed⟩
    · intro c hc
      obtain ⟨i, hi, e, he, hec⟩ := F.ended (by rw [hmesh]; exact ho) c hc
      exact ⟨(rank m i, e), (F.starts _).2 ⟨i, hi, rfl, he⟩, _, F.surface i hi, hec⟩
    · intro n s v hs hv hloose
      obtain ⟨i, hi, rfl, rfl⟩ := hall n s hs
      have hgi := gb _ (surfaceAt_mem (g.known i hi))
      have hv' : v < (surfaceAt m i).points.length := by
        have : v < (meshOf L.meshes (rank m i)).1.length := hv
        rw [F.mesh i hi, List.length_map] at this
        exact this
      have hlv : LooseVertex lib corners (surfaceAt m i) v := by
        obtain ⟨l1, l2⟩ := hloose
        refine ⟨?_, ?_⟩
        · rintro ⟨hvc, e, he, hev⟩
          have hno : ∀ w, (v, w) ∉ startsFor lib corners (surfaceAt m i) := by
            intro w hw
            have := (F.marked i hi v).2 ⟨w, hw⟩
            rw [show cornerAt (cornersMade (lib.merge L.meshes) records).2 (rank m i) v = none from l1] at this
            cases this
          rcases hev with rfl | rfl
          · exact hno e.2 (((startsFor_eq hgi).2.1 _).2 ⟨he, hvc⟩)
          · obtain ⟨j, hj⟩ := List.getElem?_of_mem he
            have hjl := (List.getElem?_eq_some_iff.1 hj).1
            have hnl := hgi.back.lt j hjl
            have hnx := hgi.back.meets j e _ hj (List.getElem?_eq_getElem hnl)
            exact hno _ (((startsFor_eq hgi).2.1 (e.2, ((lib.border (surfaceAt m i).triangles).2.ends[(lib.border (surfaceAt m i).triangles).2.next j]).2)).2
              ⟨by rw [← hnx]; exact List.getElem_mem hnl, hvc⟩)
        · rcases l2 with l2 | l2
          · exact .inl fun h => l2 ((honb i hi v).2 h)
          · right
            have hperm : ((starts.filter fun x => decide (x.1 = rank m i)).map Prod.snd).Perm
                ((lib.border (surfaceAt m i).triangles).2.ends.filter fun e => decide (e.1 ∈ corners (surfaceAt m i).id)) := by
              refine (List.perm_ext_iff_of_nodup ?_ ?_).2 ?_
              · refine List.Nodup.map_on ?_ (F.nodup.filter _)
                intro x hx y hy e
                have hx1 : x.1 = rank m i := by simpa using (List.mem_filter.1 hx).2
                have hy1 : y.1 = rank m i := by simpa using (List.mem_filter.1 hy).2
                exact Prod.ext (hx1.trans hy1.symm) e
              · exact (List.Nodup.of_map _ hgi.simple).filter _
              · intro e
                rw [List.mem_map, List.mem_filter]
                constructor
                · rintro ⟨x, hx, rfl⟩
                  obtain ⟨hx1, hx2⟩ := List.mem_filter.1 hx
                  obtain ⟨i', hi', e1, he⟩ := (F.starts x).1 hx1
                  have := rank_inj hi hi' ((by simpa using hx2 : x.1 = rank m i).symm.trans e1)
                  subst this
                  obtain ⟨a1, a2⟩ := ((startsFor_eq hgi).2.1 _).1 he
                  exact ⟨a1, by simpa using a2⟩
                · rintro ⟨a1, a2⟩
                  refine ⟨(rank m i, e), List.mem_filter.2 ⟨(F.starts _).2 ⟨i, hi, rfl, ((startsFor_eq hgi).2.1 _).2 ⟨a1, by simpa using a2⟩⟩, by simp⟩, rfl⟩
            rw [← hperm.length_eq, List.length_map]
            exact l2
      have hone := hl i hi v _ (List.getElem?_eq_getElem hv') hlv
      intro j j' t t' w w' ht ht' hw hw' hc hc'
      obtain ⟨k, hk, rfl, rfl⟩ := hall j t ht
      obtain ⟨k', hk', rfl, rfl⟩ := hall j' t' ht'
      rw [hpoint i hi, hpoint k hk, List.getElem?_map, List.getElem?_map, List.getElem?_eq_getElem hv'] at hc
      rw [hpoint i hi, hpoint k' hk', List.getElem?_map, List.getElem?_map, List.getElem?_eq_getElem hv'] at hc'
      cases hp1 : (surfaceAt m k).points[w]? with
      | none => rw [hp1] at hc; cases hc
      | some p =>
        cases hp2 : (surfaceAt m k').points[w']? with
        | none => rw [hp2] at hc'; cases hc'
        | some r =>
          rw [hp1, hmesh] at hc
          rw [hp2, hmesh] at hc'
          obtain ⟨e1, e2⟩ := hone k hk k' hk' w w' p r ((honb k hk w).1 hw) ((honb k' hk' w').1 hw') hp1 hp2 hc hc'
          exact ⟨by rw [e1], e2⟩
  obtain ⟨b, hb⟩ := hbuilt
  refine ⟨f, h1, ?_⟩
  unfold loadWhole
  rw [h2, ok_bind, h4, ok_bind]
  simp only [hb, ok_bind]
  refine ⟨_, rfl, h3, ?_⟩
  intro i hi e he
  obtain ⟨start, hstart, d, hd, hed⟩ := hcov i hi e he
  exact border_edges F.known F.nodup hb (F.surface i hi) (hB i hi) (x := (rank m i, start)) ((F.starts _).2 ⟨i, hi, rfl, hstart⟩) rfl hd hed

end

/-! ## The hypotheses can be met -/

/-- Equal points are merged and the points left are numbered in the order of their last occurrences. -/
def mergeOnto {P : Type} [DecidableEq P] : Merge P := fun ps => (ps.dedup, ps.map fun p => ps.dedup.idxOf p)

theorem mergeOnto_merges {P : Type} [DecidableEq P] : Merges (fun p q : P => p = q) mergeOnto where
  length := by intro ps; simp [mergeOnto]
  kept := by
    intro ps i p k hp hk
    have hk' : (ps.map fun p => ps.dedup.idxOf p)[i]? = some k := hk
    rw [List.getElem?_map, hp] at hk'
    have e : ps.dedup.idxOf p = k := Option.some.inj hk'
    have hm : p ∈ ps.dedup := List.mem_dedup.2 (List.mem_of_getElem? hp)
    refine ⟨p, ?_, rfl⟩
    show ps.dedup[k]? = some p
    rw [← e, List.getElem?_eq_getElem (List.idxOf_lt_length_iff.2 hm), List.getElem_idxOf]
  same := by
    intro ps i j p hi hj
    show (ps.map fun p => ps.dedup.idxOf p)[i]? = (ps.map fun p => ps.dedup.idxOf p)[j]?
    rw [List.getElem?_map, List.getElem?_map, hi, hj]

/-- Borders of single triangles, merging and comparison of equal points. -/
def exact : Library Int :=
  { border := fun _ => (tri.fwd, tri.back), merge := fun _ => mergeOnto, close := fun _ p q => decide (p = q) }

/-- The edges of a border are compared by the points of their ends. -/
theorem apart_of {points : List (Pt Int)} {ends : List (Nat × Nat)} (h : ∀ a ∈ ends, ∀ b ∈ ends, ∀ c ∈ ends,
    (∀ e ∈ [b, c], (points[a.1]? = points[e.1]? ∧ points[a.2]? = points[e.2]?) ∨ (points[a.1]? = points[e.2]? ∧ points[a.2]? = points[e.1]?)) →
    a = b ∨ a = c ∨ b = c) : EdgesApart (fun p q => decide (p = q)) points ends := by
  intro q r a ha b hb c hc hx
  have hat : ∀ {q : Pt Int} {v : Nat}, At (fun p q => decide (p = q)) points q v → points[v]? = some q := by
    rintro q v ⟨p, hp, rfl | hq⟩
    · exact hp
    · rw [of_decide_eq_true hq]; exact hp
  have key : ∀ e ∈ [a, b, c], (points[e.1]? = some q ∧ points[e.2]? = some r) ∨ (points[e.1]? = some r ∧ points[e.2]? = some q) := by
    intro e he
    rcases hx e he with ⟨h1, h2⟩ | ⟨h1, h2⟩
    · exact .inl ⟨hat h1, hat h2⟩
    · exact .inr ⟨hat h1, hat h2⟩
  refine h a ha b hb c hc ?_
  intro e he
  have ka := key a (by simp)
  have ke := key e (by simp only [List.mem_cons, List.not_mem_nil, or_false] at he ⊢; exact .inr he)
  rcases ka with ⟨a1, a2⟩ | ⟨a1, a2⟩ <;> rcases ke with ⟨e1, e2⟩ | ⟨e1, e2⟩ <;> rw [a1, a2, e1, e2] <;> simp

theorem cornered_borders : ∀ s ∈ cornered.surfaces, GoodBorders exact (fun _ => [0, 1]) s := by
  intro s hs
  have hl : s.points.length = 3 := by
    have : s = { MlCases.tri 1 with starts := [(0, 2), (1, 0)] } ∨ s = { MlCases.tri 2 with starts := [(2, 1)] } := by simpa [cornered] using hs
    rcases this with rfl | rfl <;> rfl
  refine ⟨tri_ok.1, tri_ok.2.1, tri_ok.2.2.1, ?_, ?_, (1, 0), ?_, ?_⟩
  · show (tri.back.ends.map Prod.fst).Nodup
    decide
  · rw [hl]
    show ∀ e ∈ tri.back.ends, e.1 < 3 ∧ e.2 < 3
    decide
  · show (1, 0) ∈ tri.back.ends
    decide
  · decide

theorem cornered_apart : ∀ i ∈ order cornered, EdgesApart (exact.close (meshesOf cornered)) ((surfaceAt cornered i).points.map Pt.round)
    (exact.border (surfaceAt cornered i).triangles).2.ends := by
  intro i hi
  refine apart_of ?_
  revert i
  decide +kernel

theorem mergeOnto_onto {P : Type} [DecidableEq P] : Onto (mergeOnto (P := P)) := by
  intro ps k hk
  have hk' : k < ps.dedup.length := hk
  refine List.mem_map.2 ⟨ps.dedup[k], List.mem_dedup.1 (List.getElem_mem hk'), ?_⟩
  exact (List.nodup_dedup ps).idxOf_getElem k hk'

theorem cornered_loose : ∀ i ∈ order cornered, ∀ v q, (surfaceAt cornered i).points[v]? = some q →
    LooseVertex exact (fun _ => [0, 1]) (surfaceAt cornered i) v → OnePlace exact cornered q.round := by
  intro i hi v q hv hl
  exfalso
  have h3 : v < 3 := by
    have h := (List.getElem?_eq_some_iff.1 hv).1
    have : ∀ i ∈ order cornered, (surfaceAt cornered i).points.length = 3 := by decide +kernel
    rw [this i hi] at h
    exact h
  obtain ⟨h1, h2⟩ := hl
  have hb : BorderVertex exact (surfaceAt cornered i) v := by
    show ∃ e ∈ tri.back.ends, e.1 = v ∨ e.2 = v
    have : ∀ v < 3, ∃ e ∈ tri.back.ends, e.1 = v ∨ e.2 = v := by decide
    exact this v h3
  rcases h2 with h2 | h2
  · exact h2 hb
  · have : (tri.back.ends.filter fun e => decide (e.1 ∈ [0, 1])).length < 2 := h2
    revert this
    decide

example : ∃ f, saveWhole exact (fun _ => [0, 1]) cornered MlCases.someSides = .ok f ∧ (loadWhole exact f = .throw ∨ ∃ w : Whole Int, loadWhole exact f = .ok w) := by
  obtain ⟨f, h1, h2⟩ := borders_kept MlCases.plain_int cornered_good cornered_borders mergeOnto_merges (fun _ => decide_eq_true rfl) cornered_apart
  refine ⟨f, h1, h2.imp id ?_⟩
  rintro ⟨w, hw, _⟩
  exact ⟨w, hw⟩

example : ∃ f, saveWhole exact (fun _ => [0, 1]) cornered MlCases.someSides = .ok f ∧ ∃ w : Whole Int, loadWhole exact f = .ok w ∧ Kept cornered w.model :=  by
  obtain ⟨f, h1, w, h2, h3, _⟩ := models_loaded MlCases.plain_int cornered_good cornered_borders mergeOnto_merges mergeOnto_onto (fun _ => decide_eq_true rfl)
    cornered_apart cornered_loose
  exact ⟨f, h1, w, h2, h3⟩

/-- What is read of the lines: the points of the corners, the unique vertices of the lines and those of the surfaces. -/
def seen : Res (Whole Int) → Option (List (Int × Int × Int) × List (List Nat) × List (List (Option Nat)))
  | .ok w => some (w.corners.map fun (p : Pt Int) => (p.x, p.y, p.z), w.built.vertices, w.built.surfaces.map Prod.fst)
  | _ => none

/-- Two triangles that share an edge: its ends are two corners, and its line is in both. -/
theorem shared_edge : seen (saveWhole exact (fun _ => [0, 1]) cornered MlCases.someSides >>= loadWhole exact) =
    some ([(1, 0, 0), (0, 0, 0)], [[0, 1], [1, 2, 0], [1, 3, 0]], [[some 1, some 0, some 2], [some 1, some 0, some 3]]) := by decide +kernel

/-- Not every model whose surfaces meet along their borders is loaded: when the border of a surface has one corner, its vertices are searched, and the two lines
through the other end of the shared edge are both found. -/
theorem one_corner_refused : ¬∀ (lib : Library Int) (corners : Nat → List Nat) (m : Ml.Model Int) (sides : Sides.AllSides) (f : File), GoodModel m sides →
    (∀ s ∈ m.surfaces, GoodBorders lib corners s) → Merges (fun p q => p = q) (lib.merge (meshesOf m)) → Onto (lib.merge (meshesOf m)) →
    (∀ p, lib.close (meshesOf m) p p = true) →
    (∀ i ∈ order m, EdgesApart (lib.close (meshesOf m)) ((surfaceAt m i).points.map Pt.round) (lib.border (surfaceAt m i).triangles).2.ends) →
    saveWhole lib corners m sides = .ok f → ∃ w : Whole Int, loadWhole lib f = .ok w := by
  intro h
  have hb : ∀ s ∈ cornered.surfaces, GoodBorders exact (fun _ => [0]) s := by
    intro s hs
    have g := cornered_borders s hs
    exact ⟨g.fwd, g.back, g.loop, g.simple, g.range, (0, 2), (by show (0, 2) ∈ tri.back.ends; decide), by decide⟩
  have h1 : seen (saveWhole exact (fun _ => [0]) cornered MlCases.someSides >>= loadWhole exact) = none := by decide +kernel
  have h2 : (match saveWhole exact (fun _ => [0]) cornered MlCases.someSides with
    | .ok _ => true
    | _ => false) = true := by decide +kernel
  cases hs : saveWhole exact (fun _ => [0]) cornered MlCases.someSides with
  | ok f =>
    obtain ⟨w, hw⟩ := h exact _ cornered MlCases.someSides f cornered_good hb mergeOnto_merges mergeOnto_onto (fun _ => decide_eq_true rfl) cornered_apart hs
    rw [hs, ok_bind, hw] at h1
    cases h1
  | throw => rw [hs] at h2; cases h2
  | ub => rw [hs] at h2; cases h2
  | diverge => rw [hs] at h2; cases h2

end Verif.Props.MlWhole
