import Verif.Props.GocadHeaders
import Verif.Props.LsoCases
import Verif.Props.MlCorners

/-!
# C46, C119 and C147, exactly: which tetrahedra have their own values, which line starts stay on their surface, which names of headers are those of the key
-/

set_option linter.unusedSectionVars false

namespace Verif.Props.ExactLast

open Verif Verif.Gocad Verif.Lso Verif.Props.GocadHeaders

/-- **C147, exactly.**  In a header with a line whose key is `name`, this line gives the name exactly when no later line has `name:` in it, or when the last one
that has gives the same name. -/
theorem key_names_iff (pre post rest : File) (n : Str) (hb : ∀ x ∈ pre ++ post, startsWith x cs!"}" = false) :
    readHeader (cs!"HEADER {" :: (pre ++ (cs!"name:" ++ n) :: post) ++ cs!"}" :: rest) = .ok (some (readName (split n)), rest) ↔
    (∀ x ∈ post, ¬ Mentions x) ∨
      ∃ q x q' w, post = q ++ x :: q' ∧ After x w ∧ readName (split w) = readName (split n) ∧ ∀ y ∈ q', ¬ Mentions y := by
  constructor
  · intro h
    apply Classical.byContradiction
    intro hn
    rw [not_or] at hn
    obtain ⟨h1, h2⟩ := hn
    obtain ⟨hd, body, c, e, -, hc, hbody, hnamed⟩ := header_read.1 h
    have hlen : body.length = (pre ++ (cs!"name:" ++ n) :: post).length := by
      have := congrArg List.length e
      simp only [List.length_cons, List.length_append] at this ⊢
      omega
    have e' : pre ++ (cs!"name:" ++ n) :: post ++ cs!"}" :: rest = body ++ c :: rest := by
      have := (List.cons.inj e).2
      simpa using this
    have hbe : body = pre ++ (cs!"name:" ++ n) :: post := ((List.append_inj e' hlen.symm).1).symm
    subst hbe
    obtain ⟨p, l, q, w, e1, hw, hname, hq⟩ := hnamed
    rcases List.append_eq_append_iff.1 e1 with ⟨a, ha, hb'⟩ | ⟨a, ha, hb'⟩
    · cases a with
      | nil =>
        have := List.cons.inj hb'
        exact h1 (by rw [this.2]; exact hq)
      | cons y a =>
        have := List.cons.inj hb'
        exact h2 ⟨a, l, q, w, this.2, hw, hname.symm, hq⟩
    · cases a with
      | nil =>
        have := List.cons.inj hb'
        exact h1 (by rw [← this.2]; exact hq)
      | cons y a =>
        have := List.cons.inj hb'
        refine h1 fun x hx => hq x ?_
        rw [this.2]
        simp [hx]
  · rintro (h | ⟨q, x, q', w, rfl, hw, hn, hq⟩)
    · exact key_names_partial pre post rest n hb h
    · refine header_read.2 ⟨cs!"HEADER {", pre ++ (cs!"name:" ++ n) :: (q ++ x :: q'), cs!"}", by simp, by rfl, by rfl, ?_, ?_⟩
      · intro y hy
        rcases List.mem_append.1 hy with hy | hy
        · exact hb y (by simp [hy])
        · rcases List.mem_cons.1 hy with rfl | hy
          · rfl
          · exact hb y (List.mem_append_right _ hy)
      · exact ⟨pre ++ (cs!"name:" ++ n) :: q, x, q', w, by simp, hw, hn.symm, hq⟩

/-- A header for the premise, where a later line gives the same name. -/
example : ∀ x ∈ ([cs!"a:b"] ++ [cs!"longname:fault"] : File), startsWith x cs!"}" = false := by decide

variable {D : Type} [Num D]

/-- The numbers of the tetrahedra of the file that have the name of a block. -/
def rowsNamed (s : Solid D) (name : Str) : List Nat := ((s.tetras.zip s.names).zipIdx.filter fun e => e.1.2 = name).map Prod.snd

theorem localCells_length (used : List Nat) (ts : List (List Nat)) : (localCells used ts).2.length = ts.length := by
  induction ts generalizing used with
  | nil => rfl
  | cons t ts ih => simp [localCells, ih]

theorem rows_length (s : Solid D) (name : Str) : (rowsNamed s name).length = (tetrasNamed s name).length := by
  unfold rowsNamed tetrasNamed
  rw [List.length_map, List.length_map]
  have : ∀ (l : List (List Nat × Str)) (k : Nat), ((l.zipIdx k).filter fun e => e.1.2 = name).length = (l.filter fun e => e.2 = name).length := by
    intro l
    induction l with
    | nil => intro k; rfl
    | cons a l ih =>
      intro k
      rw [List.zipIdx_cons]
      by_cases h : a.2 = name
      · rw [List.filter_cons_of_pos (by simpa using h), List.filter_cons_of_pos (by simpa using h), List.length_cons, List.length_cons, ih]
      · rw [List.filter_cons_of_neg (by simpa using h), List.filter_cons_of_neg (by simpa using h), ih]
  exact this _ _

/-- The row of each tetrahedron is the one it was read from. -/
theorem rows_right (s : Solid D) (name : Str) {k i : Nat} (h : (rowsNamed s name)[k]? = some i) : s.names[i]? = some name ∧ ∃ t, s.tetras[i]? = some t := by
  obtain ⟨e, he, rfl⟩ := List.mem_map.1 (List.mem_of_getElem? h)
  obtain ⟨h1, h2⟩ := List.mem_filter.1 he
  have h3 := List.mem_zipIdx_iff_getElem?.1 h1
  rw [List.getElem?_zip_eq_some] at h3
  have : e.1.2 = name := by simpa using h2
  rw [← this]
  exact ⟨h3.2, _, h3.1⟩

/-- **C46, exactly**, for one property of one value: the tetrahedra of a block have the values of their lines exactly when, for each one, the line of the
tetrahedron with the number of the vertex of the same rank has this value, or the value is the one for missing data when there are not so many vertices. -/
theorem tetra_values_iff {h : Headers D} {s : Solid D} {st : RState} {l : Str} {name n : Str} {d : D} {vals : List D}
    (hn : Res.index (split l) 1 = .ok name) (hh : h.tetras.names = [n]) (he : h.tetras.esizes = [1]) (hd : h.tetras.noData = [d]) (hv : s.tattrs = [vals])
    {r : RBlock D × Bool} (hr : readBlock h s st l = .ok r) :
    ∃ c, r.1.tstore = [(n, c)] ∧
      ((∀ (k i : Nat) (x : D), (rowsNamed s name)[k]? = some i → vals[i]? = some x → c.vals[k]? = some [x]) ↔
        (∀ (k i v : Nat) (x : D), (rowsNamed s name)[k]? = some i → r.1.vertices[k]? = some v → vals[i]? = some x → vals[v]? = some x) ∧
        ∀ (k i : Nat) (x : D), r.1.vertices.length ≤ k → (rowsNamed s name)[k]? = some i → vals[i]? = some x → x = d) := by
  obtain ⟨c, h1, h2, h3, h4, h5⟩ := LsoCases.tetra_values_partial hn hh he hd hv hr
  have hlen : r.1.tetras.length = (rowsNamed s name).length := by
    unfold readBlock at hr
    rw [hn, Res.ok_bind] at hr
    obtain ⟨vs, -, hr⟩ := Res.bind_eq_ok.1 hr
    obtain ⟨ts, -, hr⟩ := Res.bind_eq_ok.1 hr
    have := Res.ok.inj hr
    subst this
    rw [rows_length]
    exact localCells_length _ _
  refine ⟨c, h1, ?_⟩
  constructor
  · intro h
    refine ⟨fun k i v x hi hk hx => ?_, fun k i x hk hi hx => ?_⟩
    · obtain ⟨y, hy, hc⟩ := h4 k v hk
      have := h k i x hi hx
      rw [hc] at this
      rw [hy]
      simpa using this
    · have hlt := (List.getElem?_eq_some_iff.1 hi).1
      have := h k i x hi hx
      rw [h5 k hk (by omega)] at this
      simpa using this.symm
  · rintro ⟨ha, hb⟩ k i x hi hx
    by_cases hk : k < r.1.vertices.length
    · have hg := List.getElem?_eq_getElem hk
      obtain ⟨y, hy, hc⟩ := h4 k _ hg
      have := ha k i _ x hi hg hx
      rw [hy] at this
      rw [hc]
      simpa using this
    · have hlt := (List.getElem?_eq_some_iff.1 hi).1
      rw [h5 k (by omega) (by omega), hb k i x (by omega) hi hx]

/-- A property of tetrahedra. -/
def prop : Headers Int := { tetras := { names := [cs!"p"], esizes := [1], noData := [0] } }

/-- Four tetrahedra on the same vertices, in the given order. -/
def four (t : List Nat) : Solid Int :=
  { points := [⟨0, 0, 0⟩, ⟨1, 0, 0⟩, ⟨0, 1, 0⟩, ⟨0, 0, 1⟩], tetras := [t, t, t, t], names := [cs!"A", cs!"A", cs!"A", cs!"A"], tattrs := [[5, 6, 7, 8]] }

/-- The values of the tetrahedra of a loaded block. -/
def stored (r : Res (RBlock Int × Bool)) : Option (List (List (List Int))) :=
  match r with
  | .ok b => some (b.1.tstore.map fun e => e.2.vals)
  | _ => none

/-- Tests: a block that keeps its values, since its vertices are in the order of its tetrahedra, and one that does not. -/
example : stored (readBlock prop (four [0, 1, 2, 3]) {} cs!"MODEL_REGION A +1") = some [[[5], [6], [7], [8]]] ∧
    stored (readBlock prop (four [1, 0, 2, 3]) {} cs!"MODEL_REGION A +1") = some [[[6], [5], [7], [8]]] ∧
    rowsNamed (four [1, 0, 2, 3]) cs!"A" = [0, 1, 2, 3] := by decide +kernel

end Verif.Props.ExactLast

namespace Verif.Props.ExactLast.Starts

open Verif Verif.Gocad Verif.GocadMesh Verif.Ml Verif.Props.MlRoundTrip Verif.Props.MlCorners Res

variable {D : Type} [Num D]

/-- **C119, line starts, exactly.**  The first vertex of a line start that is read is a vertex of the surface found for it, and the next one is exactly when it is
a vertex of the same face of the file. -/
theorem start_checked_iff {f rest : File} {ts : TSurf D} (h : readTSurf f = .ok (some (ts, rest))) (hW : ts.points.length ≤ W) {tfaces : List Nat}
    {faces : List (Nat × List (Pt D) × List Tri)} (hb : buildFaces ts 0 tfaces = .ok faces) {c n : Nat} (hn : n < W) {s v w : Nat}
    (hs : startAt ts tfaces (c, n) = .ok (s, v, w)) : ∃ F ∈ faces, F.1 = s ∧ v < F.2.1.length ∧ ∃ a b, F.2.1 = slice ts.points a b ∧ a ≤ c ∧ c < b ∧
      (w < F.2.1.length ↔ a ≤ n ∧ n < b) := by
  obtain ⟨⟨h0, hle⟩, hl⟩ := read_offsets h
  unfold startAt at hs
  obtain ⟨⟨s', v', o⟩, hloc, hs⟩ := bind_eq_ok.1 hs
  have e := Res.ok.inj hs
  injection e with e1 e
  injection e with e2 e3
  subst e1 e2 e3
  unfold located at hloc
  obtain ⟨s2, hs2, hloc⟩ := bind_eq_ok.1 hloc
  obtain ⟨o2, ho2, hloc⟩ := bind_eq_ok.1 hloc
  have e := Res.ok.inj hloc
  injection e with e1 e
  injection e with e2 e3
  subst e1 e3
  obtain ⟨F, a', b', hF, hF1, ha', hb', hF2⟩ := buildFaces_at hb _ _ (index_eq_ok.1 hs2)
  rw [Nat.zero_add] at ha' hb'
  have hc : c < ts.points.length := by
    refine Nat.lt_of_not_le fun hc => ?_
    rcases tfaceIdFrom_spec ts.tfaceVertices.tail 0 c with ⟨_, h2⟩ | ⟨x, o, y, hx, h1, h2, h3⟩
    · unfold tfaceId at hb'
      rw [h2, List.length_tail] at hb'
      have := (List.getElem?_eq_some_iff.1 hb').1
      omega
    · cases hv : ts.tfaceVertices with
      | nil => rw [hv] at h0; cases h0
      | cons o0 os =>
        have hmem : o ∈ ts.tfaceVertices := by rw [hv]; rw [hv] at hx; simp only [List.tail_cons] at hx; rw [hx]; simp
        exact absurd (hle o hmem) (by omega)
  obtain ⟨a, b, ha, hb2, hac, hcb⟩ := face_found h0 hl hc
  have ho := index_eq_ok.1 ho2
  rw [ha] at ho ha'
  rw [hb2] at hb'
  injection ho with ho
  injection ha' with ha'
  injection hb' with hb'
  subst ho ha' hb'
  rw [sub32_of_le hac (by omega)] at e2
  have hbl : b ≤ ts.points.length := hle b (List.mem_of_getElem? hb2)
  have hlen : F.2.1.length = b - a := by
    rw [hF2]
    unfold slice
    rw [List.length_take, List.length_drop]
    omega
  refine ⟨F, hF, hF1, by omega, a, b, hF2, hac, hcb, ?_⟩
  rw [hlen]
  by_cases hn1 : a ≤ n
  · rw [sub32_of_le hn1 hn]
    omega
  · unfold sub32
    unfold W at *
    omega

/-- Test, for the premises: in the object of `twoFaces`, a line start of the second face, with its next vertex in this face and in the first one. -/
example : (match (readTSurf ((twoFaces [cs!"BORDER 7 4 6"]).drop 14) : Res (Option (TSurf Int × File))) with
    | .ok (some (ts, _)) => decide (ts.points.length = 6 ∧ startAt ts [0, 1] (3, 5) = .ok (1, 0, 2) ∧ startAt ts [0, 1] (3, 1) = .ok (1, 0, 4294967294)) &&
      (match buildFaces ts 0 [0, 1] with
        | .ok faces => decide (faces.map (fun F => (F.1, F.2.1.length)) = [(0, 3), (1, 3)])
        | _ => false)
    | _ => false) = true := by decide +kernel

end Verif.Props.ExactLast.Starts
