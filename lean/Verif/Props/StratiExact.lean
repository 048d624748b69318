import Verif.Props.StratiLso

/-!
# Which stratigraphic models are loaded, exactly (C86, C87)
-/

set_option linter.unusedSectionVars false

namespace Verif.Props.StratiExact

open Verif.Gocad Verif.Lso Verif.StratiLso Verif.Props.StratiLso Res

variable {D : Type} [Num D]

/-- The attribute of a block for a property of the header. -/
theorem column_of {f : File} {m : Loaded D} (h : loadLso f = .ok m) {zPos : Bool} {vh th : PropHeader D} {rest : File}
    (hh : headersOf f = .ok (zPos, vh, th, rest)) (hn : vh.names.Nodup) {b : RBlock D} (hb : b ∈ m.blocks) {a : Nat} {name : Str}
    (ha : vh.names[a]? = some name) : ∃ c, b.vstore.lookup name = some c ∧ vh.esizes[a]? = some c.esize ∧ c.vals.length = b.vertices.length := by
  obtain ⟨z', vh', th', rest', e1, e2, e3⟩ := load_parts h
  rw [hh] at e1
  cases e1
  obtain ⟨st, l, j, e4⟩ := e3 b hb
  unfold readBlock at e4
  obtain ⟨nm, _, e4⟩ := bind_eq_ok.1 e4
  obtain ⟨vs, e5, e4⟩ := bind_eq_ok.1 e4
  obtain ⟨ts, _, e4⟩ := bind_eq_ok.1 e4
  have e6 := Res.ok.inj e4
  clear e4
  unfold blockAttributes at e5
  have hb2 : b.vstore = vs ∧ b.vertices = (localCells [] (tetrasNamed m.solid nm)).1 := by
    have := congrArg Prod.fst e6
    subst this
    exact ⟨rfl, rfl⟩
  obtain ⟨_, e7⟩ := createAttributes_lookup _ _ hn (by simp) e5
  obtain ⟨e, col, c, q1, q2, q3, q4, q5⟩ := e7 a name ha
  refine ⟨c, by rw [hb2.1]; exact q3, by rw [q4]; exact q1, ?_⟩
  rw [hb2.2]
  exact (mapM'_inv q5).length_eq.symm

/-- The values of a property with a size that is not zero. -/
theorem value_of {f : File} {m : Loaded D} (h : loadLso f = .ok m) {zPos : Bool} {vh th : PropHeader D} {rest : File}
    (hh : headersOf f = .ok (zPos, vh, th, rest)) (hn : vh.names.Nodup) {b : RBlock D} (hb : b ∈ m.blocks) {a : Nat} {name : Str}
    (ha : vh.names[a]? = some name) {e : Nat} (he : vh.esizes[a]? = some e) (h0 : e ≠ 0) {c : Column D} (hc : b.vstore.lookup name = some c)
    {i : Nat} (hi : i < b.vertices.length) : ∃ vs, index c.vals i = .ok vs ∧ vs.length = e := by
  obtain ⟨c', w1, w2, w3, w4⟩ := vertex_properties h hh hn hb ha (fun e' he' => by rw [he] at he'; cases he'; exact h0)
  rw [hc] at w1
  cases w1
  have hlt : i < c.vals.length := by omega
  refine ⟨c.vals[i], index_eq_ok.2 (List.getElem?_eq_getElem hlt), ?_⟩
  rw [he] at w2
  rw [(w4 i _ (List.getElem?_eq_getElem hlt)).2]
  exact (Option.some.inj w2).symm

theorem storageKind_eq {e n : Nat} (hn : n = 1 ∨ n = 2) : storageKind e = n ↔ e = n := by
  unfold storageKind
  constructor
  · intro h
    split at h
    · exact h
    · omega
  · rintro rfl
    rw [if_pos (by omega)]

theorem mapM'_all {α β : Type} {f : α → Res β} {l : List α} (h : ∀ a ∈ l, ∃ b, f a = .ok b) : ∃ r, Res.mapM' f l = .ok r := by
  induction l with
  | nil => exact ⟨[], rfl⟩
  | cons a l ih =>
    obtain ⟨b, hb⟩ := h a (by simp)
    obtain ⟨r, hr⟩ := ih fun x hx => h x (List.mem_cons_of_mem _ hx)
    exact ⟨b :: r, by rw [mapM'_cons, hb, ok_bind, hr]; rfl⟩

/-- Elements that give a result or undefined behaviour: undefined behaviour as soon as one has it. -/
theorem mapM'_some_ub {α β : Type} {f : α → Res β} {l : List α} (h : ∀ a ∈ l, (∃ b, f a = .ok b) ∨ f a = .ub) (hu : ∃ a ∈ l, f a = .ub) :
    Res.mapM' f l = .ub := by
  induction l with
  | nil => obtain ⟨a, ha, _⟩ := hu; simp at ha
  | cons a l ih =>
    rcases h a (by simp) with ⟨b, hb⟩ | hb
    · obtain ⟨x, hx, hxu⟩ := hu
      rcases List.mem_cons.1 hx with rfl | hx
      · rw [hb] at hxu; cases hxu
      · rw [mapM'_cons, hb, ok_bind, ih (fun y hy => h y (List.mem_cons_of_mem _ hy)) ⟨x, hx, hxu⟩]
        rfl
    · rw [mapM'_cons, hb]
      rfl

/-- The two properties have the sizes of two and one values. -/
def Sizes (vh : PropHeader D) (g s : Nat) : Prop := vh.esizes[g]? = some 2 ∧ vh.esizes[s]? = some 1

section
variable {f : File} {m : Loaded D} (h : loadLso f = .ok m) {zPos : Bool} {vh th : PropHeader D} {rest : File}
  (hh : headersOf f = .ok (zPos, vh, th, rest)) (hn : vh.names.Nodup) {g s : Nat} (hg : vh.names[g]? = some GEOL) (hs : vh.names[s]? = some STRATI)
include h hh hn hg hs

theorem block_right {b : RBlock D} (hb : b ∈ m.blocks) (hz : Sizes vh g s ∨ b.vertices = []) : ∃ ps, blockCoords b = .ok ps := by
  obtain ⟨gc, g1, g2, g3⟩ := column_of h hh hn hb hg
  obtain ⟨sc, s1, s2, s3⟩ := column_of h hh hn hb hs
  unfold blockCoords
  rw [s1, g1, ofParse_some, ok_bind, ofParse_some, ok_bind]
  refine mapM'_all fun i hi => ?_
  have hi' := List.mem_range.1 hi
  rcases hz with hz | hz
  · obtain ⟨gv, e1, l1⟩ := value_of h hh hn hb hg hz.1 (by decide) g1 hi'
    obtain ⟨sv, e2, l2⟩ := value_of h hh hn hb hs hz.2 (by decide) s1 hi'
    rw [hz.1] at g2
    rw [hz.2] at s2
    have k1 : storageKind gc.esize = 2 := by rw [← Option.some.inj g2]; rfl
    have k2 : storageKind sc.esize = 1 := by rw [← Option.some.inj s2]; rfl
    match gv, sv, l1, l2 with
    | [x, y], [z], _, _ =>
      refine ⟨⟨x, y, z⟩, ?_⟩
      unfold vertexCoords typedValue
      rw [if_pos k1, if_pos k2, e1, e2]
      rfl
  · rw [hz] at hi'
    exact absurd hi' (by simp)

theorem block_wrong {b : RBlock D} (hb : b ∈ m.blocks) (hz : ¬Sizes vh g s) (hv : b.vertices ≠ []) : blockCoords b = .ub := by
  obtain ⟨gc, g1, g2, g3⟩ := column_of h hh hn hb hg
  obtain ⟨sc, s1, s2, s3⟩ := column_of h hh hn hb hs
  have hpos : 0 < b.vertices.length := List.length_pos_iff.2 hv
  have h0 : vertexCoords gc sc 0 = .ub := by
    unfold vertexCoords
    by_cases k1 : storageKind gc.esize = 2
    · have ge := (storageKind_eq (by omega)).1 k1
      rw [ge] at g2
      obtain ⟨gv, e1, l1⟩ := value_of h hh hn hb hg g2 (by decide) g1 hpos
      have k2 : storageKind sc.esize ≠ 1 := by
        intro k2
        have se := (storageKind_eq (by omega)).1 k2
        rw [se] at s2
        exact hz ⟨g2, s2⟩
      match gv, l1 with
      | [x, y], _ =>
        unfold typedValue
        rw [if_pos k1, if_neg k2, e1]
        rfl
    · unfold typedValue
      rw [if_neg k1]
      rfl
  unfold blockCoords
  rw [s1, g1, ofParse_some, ok_bind, ofParse_some, ok_bind]
  obtain ⟨n, e⟩ := Nat.exists_eq_succ_of_ne_zero (Nat.pos_iff_ne_zero.1 hpos)
  rw [e, List.range_succ_eq_map, mapM'_cons, h0]
  rfl

/-- **C86 and C87, exactly**, for the files with the two properties that load as structural models: the stratigraphic model is loaded if and only if the
properties have two values and one, or no block has a vertex.  Otherwise the behaviour is undefined. -/
theorem loaded_iff : ((∃ r, loadStrati (D := D) f = .ok r) ↔ Sizes vh g s ∨ ∀ b ∈ m.blocks, b.vertices = []) ∧
    (loadStrati (D := D) f = .ub ↔ ¬Sizes vh g s ∧ ∃ b ∈ m.blocks, b.vertices ≠ []) := by
  have e : loadStrati (D := D) f = (Res.mapM' blockCoords m.blocks >>= fun c => pure (m, c)) := by
    unfold loadStrati
    rw [h, ok_bind]
  by_cases hz : Sizes vh g s
  · obtain ⟨r, hr⟩ := mapM'_all fun b hb => block_right h hh hn hg hs hb (Or.inl hz)
    have e' : loadStrati (D := D) f = .ok (m, r) := by rw [e, hr]; rfl
    exact ⟨⟨fun _ => Or.inl hz, fun _ => ⟨_, e'⟩⟩, ⟨fun hu => (by rw [e'] at hu; cases hu), fun hu => absurd hz hu.1⟩⟩
  · by_cases hv : ∀ b ∈ m.blocks, b.vertices = []
    · obtain ⟨r, hr⟩ := mapM'_all fun b hb => block_right h hh hn hg hs hb (Or.inr (hv b hb))
      have e' : loadStrati (D := D) f = .ok (m, r) := by rw [e, hr]; rfl
      exact ⟨⟨fun _ => Or.inr hv, fun _ => ⟨_, e'⟩⟩,
        ⟨fun hu => (by rw [e'] at hu; cases hu), fun ⟨_, b, hb, hne⟩ => absurd (hv b hb) hne⟩⟩
    · have hv' : ∃ b ∈ m.blocks, b.vertices ≠ [] := by
        by_contra hc
        exact hv fun b hb => by
          by_contra hne
          exact hc ⟨b, hb, hne⟩
      have hu : Res.mapM' blockCoords m.blocks = .ub := by
        refine mapM'_some_ub (fun b hb => ?_) ?_
        · by_cases hbv : b.vertices = []
          · exact Or.inl (block_right h hh hn hg hs hb (Or.inr hbv))
          · exact Or.inr (block_wrong h hh hn hg hs hb hz hbv)
        · obtain ⟨b, hb, hne⟩ := hv'
          exact ⟨b, hb, block_wrong h hh hn hg hs hb hz hne⟩
      have e' : loadStrati (D := D) f = .ub := by rw [e, hu]; rfl
      refine ⟨⟨fun ⟨r, hr⟩ => ?_, fun hc => ?_⟩, ⟨fun _ => ⟨hz, hv'⟩, fun _ => e'⟩⟩
      · rw [e'] at hr; cases hr
      · rcases hc with hc | hc
        · exact absurd hc hz
        · exact absurd hc hv
end

/-- **All the outcomes** for a file that loads as a structural model, with different names of properties: an exception if and only if there is a block and a
property is missing. -/
theorem refused_iff {f : File} {m : Loaded D} (h : loadLso f = .ok m) {zPos : Bool} {vh th : PropHeader D} {rest : File}
    (hh : headersOf f = .ok (zPos, vh, th, rest)) (hn : vh.names.Nodup) :
    loadStrati (D := D) f = .throw ↔ m.blocks ≠ [] ∧ (GEOL ∉ vh.names ∨ STRATI ∉ vh.names) := by
  constructor
  · intro ht
    have hb : m.blocks ≠ [] := by
      intro hb
      unfold loadStrati at ht
      rw [h, ok_bind, hb] at ht
      cases ht
    refine ⟨hb, ?_⟩
    by_contra hc
    have hg : GEOL ∈ vh.names := by
      by_contra hx
      exact hc (Or.inl hx)
    have hs : STRATI ∈ vh.names := by
      by_contra hx
      exact hc (Or.inr hx)
    obtain ⟨g, hg⟩ := List.mem_iff_getElem?.1 hg
    obtain ⟨s, hs⟩ := List.mem_iff_getElem?.1 hs
    obtain ⟨h1, h2⟩ := loaded_iff h hh hn hg hs
    by_cases hz : Sizes vh g s ∨ ∀ b ∈ m.blocks, b.vertices = []
    · obtain ⟨r, hr⟩ := h1.2 hz
      rw [hr] at ht
      cases ht
    · have hu := h2.2 ⟨fun hx => hz (Or.inl hx), by
        by_contra hne
        exact hz (Or.inr fun b hb => by
          by_contra hx
          exact hne ⟨b, hb, hx⟩)⟩
      rw [hu] at ht
      cases ht
  · rintro ⟨hb, hm⟩
    exact missing_property_throws h hb hh hn hm

/-- The hypotheses hold for the file of one tetrahedron with the two properties. -/
example : ∃ (m : Loaded Int) (zPos : Bool) (vh th : PropHeader Int) (rest : File),
    loadLso (propertyFile GEOL STRATI 2 1 fun _ => cs!" 0 0 0") = .ok m ∧ headersOf (propertyFile GEOL STRATI 2 1 fun _ => cs!" 0 0 0") = .ok (zPos, vh, th, rest) ∧
    vh.names.Nodup ∧ vh.names[0]? = some GEOL ∧ vh.names[1]? = some STRATI ∧ Sizes vh 0 1 ∧ ∃ b ∈ m.blocks, b.vertices ≠ [] := by
  refine ⟨_, _, _, _, _, rfl, rfl, ?_⟩
  refine ⟨by decide, rfl, rfl, ⟨rfl, rfl⟩, by decide +kernel⟩

end Verif.Props.StratiExact
