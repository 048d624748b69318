import Verif.Lemmas.GocadCut
import Verif.Props.MlCases

/-!
# Cut `.ml` files

What is loaded from the first lines of a `.ml` file that can be loaded: the same model, or nothing.
-/

namespace Verif.Props.MlCut

open Verif Verif.Gocad Verif.GocadMesh Verif.GocadCut Verif.Ml

variable {D : Type} [Num D]

/-! ### The readers, with the lines they leave -/

/-- The lines before the components. -/
def headOf (f : File) : Res (Option Str × File) :=
  gotoKeyword cs!"GOCAD Model3d" f >>= fun a => readHeader a.2 >>= fun b => readCrs b.2 >>= fun c => .ok (b.1, c.2)

theorem headOf_cut : Cut True headOf := by
  refine Cut.bind (K := fun _ f => readHeader f >>= fun b => readCrs b.2 >>= fun c => .ok (b.1, c.2)) (gotoKeyword_cut _) (fun _ => ?_) (fun h => h.elim)
  refine Cut.bind (K := fun n f => readCrs f >>= fun c => .ok (n, c.2)) readHeader_cut (fun n => ?_) (fun h => h.elim)
  refine Cut.bind (e1 := True) (K := fun _ f => .ok (n, f)) readCrs_cut (fun _ => cut_pure (.ok n)) (fun _ _ => Or.inr ⟨trivial, n, rfl⟩)

/-- The next TSurf of the file. -/
def nextTSurf (f : File) : Res (TSurf D × File) := gotoKeyword cs!"GOCAD TSurf" f >>= fun a => tsurfBody a.2

theorem nextTSurf_cut : Cut False (nextTSurf : File → Res (TSurf D × File)) :=
  Cut.bind (K := fun _ f => tsurfBody f) (gotoKeyword_cut _) (fun _ => tsurfBody_cut) (fun h => h.elim)

theorem nextTSurf_eq (f : File) : (nextTSurf f : Res (TSurf D × File)) =
    ((readTSurf f : Res (Option (TSurf D × File))) >>= fun o => match o with | none => .throw | some r => .ok r) := by
  rw [readTSurf_eq, nextTSurf, gotoKeyword]
  cases gotoKeyword? cs!"GOCAD TSurf" f with
  | none => rfl
  | some r =>
    simp only [Res.ofParse, Res.ok_bind]
    cases (tsurfBody r.2 : Res (TSurf D × File)) <;> rfl

/-- The meshes, with the lines after the last one read. -/
def surfacesOf : List RTsurf → File → Res (List (Nat × List (Pt D) × List Tri) × File)
  | [], f => .ok ([], f)
  | t :: ts, f => nextTSurf f >>= fun d => buildFaces d.1 0 t.tfaces >>= fun faces => surfacesOf ts d.2 >>= fun r => .ok (faces ++ r.1, r.2)

theorem surfacesOf_eq (ts : List RTsurf) (f : File) : (readSurfaces ts f : Res (List (Nat × List (Pt D) × List Tri))) =
    (surfacesOf ts f >>= fun r => .ok r.1) := by
  induction ts generalizing f with
  | nil => rfl
  | cons t ts ih =>
    rw [readSurfaces, surfacesOf, nextTSurf_eq]
    cases (readTSurf f : Res (Option (TSurf D × File))) with
    | ok o =>
      cases o with
      | none => rfl
      | some r =>
        obtain ⟨d, g⟩ := r
        simp only [Res.ok_bind, Res.bind_assoc', Res.pure_eq, ih]
    | throw => rfl
    | ub => rfl
    | diverge => rfl

theorem surfacesOf_cut (ts : List RTsurf) : Cut False (surfacesOf ts : File → Res (List (Nat × List (Pt D) × List Tri) × File)) := by
  induction ts with
  | nil => exact cut_pure (.ok [])
  | cons t ts ih =>
    refine Cut.bind (K := fun d f => buildFaces d 0 t.tfaces >>= fun faces => surfacesOf ts f >>= fun r => .ok (faces ++ r.1, r.2))
      nextTSurf_cut (fun d => ?_) (fun h => h.elim)
    cases hb : buildFaces d 0 t.tfaces with
    | ok faces =>
      simp only [Res.ok_bind]
      exact Cut.bind (K := fun r f => .ok (faces ++ r, f)) ih (fun r => cut_pure (.ok (faces ++ r))) (fun h => h.elim)
    | throw => exact fun f => CutAt.none fun x => by simp
    | ub => exact fun f => CutAt.none fun x => by intro h; cases h
    | diverge => exact fun f => CutAt.none fun x => by intro h; cases h

/-- A file that stops in the components: an exception, or an endless loop in a list that is not closed. -/
theorem readLines_cut (s : RState × Mode) (f : File) {st : RState} {rest : File} (h : readLines s f = .ok (st, rest)) :
    ∃ used, f = used ++ rest ∧ ∀ p, p <+: f →
      (p.length < used.length ∧ (readLines s p = .throw ∨ (readLines s p = .diverge ∧ ∃ s', run s p = .ok s' ∧ s'.2 ≠ .top)))
      ∨ (∃ q, p = used ++ q ∧ readLines s p = .ok (st, q)) := by
  have hnil : ∀ s : RState × Mode, readLines s [] = .throw ∨ (readLines s [] = .diverge ∧ ∃ s', run s [] = .ok s' ∧ s'.2 ≠ .top) := by
    rintro ⟨st, mode⟩
    by_cases hm : mode = .top
    · subst hm; exact Or.inl rfl
    · refine Or.inr ⟨?_, (st, mode), rfl, hm⟩
      cases mode <;> first | rfl | exact absurd rfl hm
  induction f generalizing s with
  | nil =>
    rcases hnil s with h' | ⟨h', -⟩ <;> rw [h'] at h <;> cases h
  | cons l ls ih =>
    obtain ⟨st0, mode⟩ := s
    rw [readLines.eq_3] at h
    by_cases hc : mode = .top ∧ startsWith l cs!"END" = true
    · rw [if_pos hc] at h
      simp only [Res.ok.injEq, Prod.mk.injEq] at h
      obtain ⟨rfl, rfl⟩ := h
      refine ⟨[l], rfl, ?_⟩
      intro p hp
      cases p with
      | nil => exact Or.inl ⟨by simp, hnil _⟩
      | cons x p =>
        obtain ⟨rfl, hp'⟩ := List.cons_prefix_cons.1 hp
        exact Or.inr ⟨p, rfl, by rw [readLines.eq_3, if_pos hc]⟩
    · rw [if_neg hc] at h
      obtain ⟨s', hs, h⟩ := Res.bind_eq_ok.1 h
      obtain ⟨u, rfl, hu⟩ := ih s' h
      refine ⟨l :: u, rfl, ?_⟩
      intro p hp
      cases p with
      | nil => exact Or.inl ⟨by simp, hnil _⟩
      | cons x p =>
        obtain ⟨rfl, hp'⟩ := List.cons_prefix_cons.1 hp
        rw [readLines.eq_3, if_neg hc, run_cons, hs, Res.ok_bind, Res.ok_bind]
        rcases hu p hp' with ⟨hl, h⟩ | ⟨q, rfl, hq⟩
        · exact Or.inl ⟨by simp; omega, h⟩
        · exact Or.inr ⟨q, rfl, hq⟩

theorem loadMl_eq (f : File) : (loadMl f : Res (Ml.Loaded D)) = (headOf f >>= fun a => readLines ({}, .top) a.2 >>= fun b =>
    createTsurfs a.1 b.1 >>= fun (m : Ml.Loaded D) => surfacesOf b.1.tsurfs b.2 >>= fun r => .ok { m with meshes := r.1 }) := by
  unfold loadMl headOf
  simp only [Res.bind_assoc', Res.ok_bind, surfacesOf_eq, Res.pure_eq]

/-! ### Files -/

/-- The file stops in a list of the components that is not closed. -/
def OpenList (p : File) : Prop := ∃ h c s, p = h ++ c ∧ run ({}, .top) c = .ok s ∧ s.2 ≠ .top

theorem prefix_append {α : Type} {u q rest : List α} (h : u ++ q <+: u ++ rest) : q <+: rest := by
  obtain ⟨t, ht⟩ := h
  rw [List.append_assoc] at ht
  exact ⟨t, List.append_cancel_left ht⟩

/-- The lines used, with the parts of the loading of the whole file. -/
theorem cut_parts {f f1 f2 f3 : File} {name : Option Str} {st : RState} {m : Ml.Loaded D} {ms : List (Nat × List (Pt D) × List Tri)}
    (h1 : headOf f = .ok (name, f1)) (h2 : readLines ({}, .top) f1 = .ok (st, f2)) (h3 : createTsurfs name st = .ok m)
    (h4 : surfacesOf st.tsurfs f2 = .ok (ms, f3)) :
    ∃ used, f = used ++ f3 ∧ ∀ p, p <+: f →
      (p.length < used.length ∧ ((loadMl p : Res (Ml.Loaded D)) = .throw ∨ ((loadMl p : Res (Ml.Loaded D)) = .diverge ∧ OpenList p)))
      ∨ (used <+: p ∧ (loadMl p : Res (Ml.Loaded D)) = .ok { m with meshes := ms }) := by
  obtain ⟨u1, rfl, c1⟩ := headOf_cut _ _ _ h1
  obtain ⟨u2, rfl, c2⟩ := readLines_cut _ _ h2
  obtain ⟨u3, rfl, c3⟩ := surfacesOf_cut _ _ _ _ h4
  refine ⟨u1 ++ u2 ++ u3, by simp, ?_⟩
  intro p hp
  rw [loadMl_eq]
  rcases c1 p hp with ⟨hl, ht | ⟨-, a', ha'⟩⟩ | ⟨q, rfl, hq⟩
  · exact Or.inl ⟨by simp; omega, Or.inl (by rw [ht]; rfl)⟩
  · exact Or.inl ⟨by simp; omega, Or.inl (by rw [ha', Res.ok_bind]; rfl)⟩
  rw [hq, Res.ok_bind]
  rcases c2 q (prefix_append hp) with ⟨hl, ht | ⟨hd, s', hs', hm⟩⟩ | ⟨q', rfl, hq'⟩
  · exact Or.inl ⟨by simp; omega, Or.inl (by simp only [ht, Res.throw_bind])⟩
  · exact Or.inl ⟨by simp; omega, Or.inr ⟨by simp only [hd]; rfl, u1, q, s', rfl, hs', hm⟩⟩
  simp only [hq', Res.ok_bind, h3]
  rcases c3 q' (prefix_append (prefix_append hp)) with ⟨hl, ht | ⟨h, -⟩⟩ | ⟨q'', rfl, hq''⟩
  · exact Or.inl ⟨by simp; omega, Or.inl (by rw [ht]; rfl)⟩
  · exact h.elim
  · exact Or.inr ⟨⟨q'', by simp⟩, by rw [hq'']; rfl⟩

/-- What is loaded from the first lines of a file that can be loaded.  The file has a part that is used, which does not depend on where the file is
cut: with all of it the same model is loaded; without the end of it nothing is, either by an exception or by an endless loop in a list that is not
closed.  There is no undefined behaviour, and never another model. -/
theorem cut_file {f : File} {L : Ml.Loaded D} (h : loadMl f = .ok L) :
    ∃ used, used <+: f ∧ ∀ p, p <+: f →
      (p.length < used.length ∧ ((loadMl p : Res (Ml.Loaded D)) = .throw ∨ ((loadMl p : Res (Ml.Loaded D)) = .diverge ∧ OpenList p)))
      ∨ (used <+: p ∧ (loadMl p : Res (Ml.Loaded D)) = .ok L) := by
  rw [loadMl_eq] at h
  obtain ⟨⟨name, f1⟩, h1, h⟩ := Res.bind_eq_ok.1 h
  obtain ⟨⟨st, f2⟩, h2, h⟩ := Res.bind_eq_ok.1 h
  obtain ⟨m, h3, h⟩ := Res.bind_eq_ok.1 h
  obtain ⟨⟨ms, f3⟩, h4, h⟩ := Res.bind_eq_ok.1 h
  cases h
  obtain ⟨used, hu, hc⟩ := cut_parts h1 h2 h3 h4
  exact ⟨used, ⟨f3, hu.symm⟩, hc⟩

/-- Cutting a file never gives another model. -/
theorem cut_same {f p : File} (hp : p <+: f) {L L' : Ml.Loaded D} (h : loadMl f = .ok L) (h' : loadMl p = .ok L') : L' = L := by
  obtain ⟨used, -, hc⟩ := cut_file h
  rcases hc p hp with ⟨-, h1 | ⟨h1, -⟩⟩ | ⟨-, h1⟩ <;> rw [h'] at h1 <;> cases h1
  rfl

/-- A file without the mesh of the last of its TSurfs is rejected. -/
theorem missing_mesh {ts : List RTsurf} {t : RTsurf} {f : File} (h : ∀ l ∈ f, startsWith l cs!"GOCAD TSurf" = false) :
    (readSurfaces (t :: ts) f : Res (List (Nat × List (Pt D) × List Tri))) = .throw := by
  have : gotoKeyword? cs!"GOCAD TSurf" f = none := by
    induction f with
    | nil => rfl
    | cons l ls ih =>
      rw [gotoKeyword?, if_neg (by rw [h l (by simp)]; simp)]
      exact ih fun l hl => h l (by simp [hl])
  rw [readSurfaces, readTSurf_eq, this]
  rfl

theorem saved_surfaces [LawfulNum D] (f : Nat → Nat) : ∀ (T : List (Coll D)), (∀ t ∈ T, GoodName t.name ∧ t.items ≠ [] ∧ (∀ s ∈ t.items, GoodSurface s) ∧ 1 + nbPoints t.items ≤ W) →
    ∃ ms, (surfacesOf (T.map fun t => ⟨t.name, t.kind, (t.items.map Surface.id).map f⟩) (T.flatMap fun t => writeTSurf t.kind t.name t.items) :
      Res (List (Nat × List (Pt D) × List Tri) × File)) = .ok (ms, [])
  | [], _ => ⟨[], rfl⟩
  | t :: T, h => by
    obtain ⟨h1, h2, h3, h4⟩ := h t List.mem_cons_self
    obtain ⟨ms, ih⟩ := saved_surfaces f T (fun t ht => h t (List.mem_cons_of_mem _ ht))
    rw [List.map_cons, List.flatMap_cons, surfacesOf, nextTSurf_eq, readTSurf_written h1.obj h2 h3 h4]
    have hb := buildFaces_dataOf t.name t.items h3 h4 t.items [] ((t.items.map Surface.id).map f) rfl (by simp)
    rw [List.length_nil] at hb
    simp only [Res.ok_bind]
    rw [hb]
    simp only [Res.ok_bind, ih]
    exact ⟨_, rfl⟩

/-- Every line of a file saved is needed: without its last lines, however few, nothing is loaded. -/
theorem saved_cut [LawfulNum D] (hp : PlainNumbers D) {m : Model D} {sides : Sides.AllSides} (g : GoodModel m sides) :
    ∃ f, saveMl m sides = .ok f ∧ ∀ p, p <+: f → p ≠ f →
      ((loadMl p : Res (Ml.Loaded D)) = .throw ∨ ((loadMl p : Res (Ml.Loaded D)) = .diverge ∧ OpenList p)) := by
  obtain ⟨ls, st, h1, h2, h3⟩ := components_read hp g
  have hw := writeModelSurfaces_model g
  have hc := MlRoundTrip.collections_kept (D := D) g h2 m.name
  obtain ⟨ms, hr⟩ := saved_surfaces (rank m) (tsurfsOf m (collsOf m)) (fun t ht =>
    ⟨(colls_good g ht).2.1, (colls_good g ht).2.2, fun s hs => g.meshes s (items_good g ht hs), MlRoundTrip.coll_points g ht⟩)
  refine ⟨[cs!"GOCAD Model3d 1"] ++ writeHeader m.name ++ writeCrs {} ++ ls ++ (tsurfsOf m (collsOf m)).flatMap fun t => writeTSurf t.kind t.name t.items,
    by unfold saveMl; rw [h1, hw]; rfl, ?_⟩
  have hh : headOf ([cs!"GOCAD Model3d 1"] ++ writeHeader m.name ++ writeCrs {} ++ ls ++ (tsurfsOf m (collsOf m)).flatMap fun t => writeTSurf t.kind t.name t.items)
      = .ok (m.name, ls ++ (tsurfsOf m (collsOf m)).flatMap fun t => writeTSurf t.kind t.name t.items) := by
    unfold headOf
    have e : [cs!"GOCAD Model3d 1"] ++ writeHeader m.name ++ writeCrs {} ++ ls ++ (tsurfsOf m (collsOf m)).flatMap (fun t => writeTSurf t.kind t.name t.items) =
        cs!"GOCAD Model3d 1" :: (writeHeader m.name ++ (writeCrs {} ++ (ls ++ (tsurfsOf m (collsOf m)).flatMap fun t => writeTSurf t.kind t.name t.items))) := by simp
    rw [e, gotoKeyword_here (by rfl), Res.ok_bind]
    simp only
    rw [readHeader_good g.name, Res.ok_bind]
    simp only
    rw [readCrs_default, Res.ok_bind]
  rw [← h2.tsurfs] at hr
  obtain ⟨used, hu, hcut⟩ := cut_parts hh (h3 _) hc hr
  intro p hpf hne
  rw [List.append_nil] at hu
  rcases hcut p hpf with ⟨-, h⟩ | ⟨h, -⟩
  · exact h
  · rw [← hu] at h
    exact absurd (List.IsPrefix.eq_of_length hpf (Nat.le_antisymm hpf.length_le h.length_le)) hne

example : ∃ f, saveMl MlCases.full MlCases.someSides = .ok f ∧ ∀ p, p <+: f → p ≠ f →
    ((loadMl p : Res (Ml.Loaded Int)) = .throw ∨ ((loadMl p : Res (Ml.Loaded Int)) = .diverge ∧ OpenList p)) :=
  saved_cut MlCases.plain_int MlCases.full_good

/-- Both ways of not loading are met: the file of the example without its last line, and cut in its first list. -/
example : (saveMl MlCases.full MlCases.someSides >>= fun f => (loadMl f.dropLast : Res (Ml.Loaded Int))) = .throw := by decide +kernel

example : (saveMl MlCases.full MlCases.someSides >>= fun f =>
    (loadMl (f.takeWhile fun l => !startsWith l cs!"REGION") >>= fun (_ : Ml.Loaded Int) => .ok ())) = .throw := by decide +kernel

example : (saveMl MlCases.full MlCases.someSides >>= fun f =>
    (loadMl ((f.takeWhile fun l => !startsWith l cs!"REGION") ++ ((f.dropWhile fun l => !startsWith l cs!"REGION").take 1)) : Res (Ml.Loaded Int))) = .diverge := by
  decide +kernel

/-- Lines after the used part change nothing. -/
example : (saveMl MlCases.full MlCases.someSides >>= fun f => (loadMl (f ++ [cs!"GOCAD TSurf 1", cs!"x"]) : Res (Ml.Loaded Int))) =
    (saveMl MlCases.full MlCases.someSides >>= fun f => loadMl f) := by decide +kernel

end Verif.Props.MlCut
