import Verif.Props.MlRoundTrip
import Verif.Props.MlNumbers

/-!
# What `.ml` files do not keep

The layers read for any list of numbers, files cut inside a list, blocks bounded by a single surface, and the models for which the file saved
gives another model or cannot be loaded.
-/

set_option linter.unusedSectionVars false

namespace Verif.Props.MlCases

open Verif Verif.Gocad Verif.GocadMesh Verif.Ml

variable {D : Type} [Num D]

/-! ### Layers -/

/-- Numbers of the lists after the removal of those of the surfaces. -/
theorem layer_values (st : RState) (hs : st.surfaces.length + 2 + st.blocks.length ≤ W) : ∀ (ns : List Nat), (∀ n ∈ ns, 0 < n ∧ n < W) →
    layerBlocks st (ns.map fun n => sub32 n ((1 + st.surfaces.length) % W)) =
      (ns.filter fun n => decide (st.surfaces.length + 2 ≤ n ∧ n < st.surfaces.length + 2 + st.blocks.length)).map fun n => n - (st.surfaces.length + 2)
  | [], _ => rfl
  | n :: ns, h => by
    have ih := layer_values st hs ns fun k hk => h k (List.mem_cons_of_mem _ hk)
    have hn := h n List.mem_cons_self
    unfold layerBlocks at ih ⊢
    rw [List.map_cons, List.filter_cons, List.filter_cons]
    have hm : (1 + st.surfaces.length) % W = 1 + st.surfaces.length := Nat.mod_eq_of_lt (by omega)
    have hv : sub32 n ((1 + st.surfaces.length) % W) =
        if 1 + st.surfaces.length ≤ n then n - (1 + st.surfaces.length) else n + W - (1 + st.surfaces.length) := by
      rw [hm]
      split
      · next hle => exact sub32_of_le hle hn.2
      · next hle =>
        unfold sub32
        rw [Nat.mod_eq_of_lt (by omega)]
        try omega
    have hiff : (decide (sub32 n ((1 + st.surfaces.length) % W) ≠ 0 ∧ sub32 n ((1 + st.surfaces.length) % W) - 1 < st.blocks.length)) =
        decide (st.surfaces.length + 2 ≤ n ∧ n < st.surfaces.length + 2 + st.blocks.length) := by
      rw [hv]
      apply Bool.eq_iff_iff.2
      simp only [decide_eq_true_eq]
      split <;> omega
    simp only [hiff]
    by_cases hc : st.surfaces.length + 2 ≤ n ∧ n < st.surfaces.length + 2 + st.blocks.length
    · rw [if_pos (by simpa using hc), if_pos (by simpa using hc), List.map_cons, List.map_cons, ih]
      congr 1
      rw [hv, if_pos (by omega)]
      omega
    · rw [if_neg (by simpa using hc), if_neg (by simpa using hc), ih]

theorem numbers_tokens (st : RState) : ∀ (ns : List Nat), (∀ n ∈ ns, 0 < n ∧ n < W) →
    List.Forall₂ (fun x v => IsTok x ∧ layerToken st x = .ok (some v)) (ns.map showNat) (ns.map fun n => sub32 n ((1 + st.surfaces.length) % W))
  | [], _ => .nil
  | n :: ns, h => .cons ⟨isTok_showNat n, layerToken_showNat (h n List.mem_cons_self).1 (h n List.mem_cons_self).2⟩
      (numbers_tokens st ns fun k hk => h k (List.mem_cons_of_mem _ hk))

/-- A `LAYER` record with any numbers: with `S` surfaces and `B` blocks read before, the unit gets the blocks of the numbers from `S + 2` to
`S + B + 1`; the universe, which has number `S + 1`, and the other numbers are ignored. -/
theorem layer_numbers (st : RState) (hs : st.surfaces.length + 2 + st.blocks.length ≤ W) {name : Str} (hg : GoodName name) (ns : List Nat)
    (hn : ∀ n ∈ ns, 0 < n ∧ n < W) :
    run (st, .top) ((cs!"LAYER" ++ spaced [name]) :: wrapped cs!"  " 0 (ns.map showNat)) = .ok ({ st with
      units := st.units ++ [(name, (ns.filter fun n => decide (st.surfaces.length + 2 ≤ n ∧ n < st.surfaces.length + 2 + st.blocks.length)).map
        fun n => n - (st.surfaces.length + 2))] }, .top) := by
  rw [(run_layer st hg (numbers_tokens st ns hn)).2, layer_values st hs ns hn]

/-- The same for a `FAULT_BLOCK` record. -/
theorem fault_block_numbers (st : RState) (hs : st.surfaces.length + 2 + st.blocks.length ≤ W) {name : Str} (hg : GoodName name) (ns : List Nat)
    (hn : ∀ n ∈ ns, 0 < n ∧ n < W) :
    run (st, .top) ((cs!"FAULT_BLOCK" ++ spaced [name]) :: wrapped cs!"  " 0 (ns.map showNat)) = .ok ({ st with
      faultBlocks := st.faultBlocks ++ [(name, (ns.filter fun n => decide (st.surfaces.length + 2 ≤ n ∧ n < st.surfaces.length + 2 + st.blocks.length)).map
        fun n => n - (st.surfaces.length + 2))] }, .top) := by
  rw [(run_faultBlock st hg (numbers_tokens st ns hn)).2, layer_values st hs ns hn]

/-- Two surfaces, three blocks: the numbers 4 and 6 are those of the first and of the third block, 3 is the universe, 2 a surface, 7 nothing. -/
example : run ({ surfaces := [cs!"a", cs!"b"], blocks := [⟨cs!"x", [], []⟩, ⟨cs!"y", [], []⟩, ⟨cs!"z", [], []⟩] }, .top)
    ((cs!"LAYER" ++ spaced [cs!"u"]) :: wrapped cs!"  " 0 ([3, 4, 6, 2, 7].map showNat)) = .ok (
      { surfaces := [cs!"a", cs!"b"], blocks := [⟨cs!"x", [], []⟩, ⟨cs!"y", [], []⟩, ⟨cs!"z", [], []⟩], units := [(cs!"u", [0, 2])] }, .top) := by
  decide +kernel

/-! ### Files cut before the end of the components -/

/-- The lines of a file, none of which starts with `END`, after which a list is still open. -/
def Unclosed (f : File) : Prop := NoEnd f ∧ ∃ s, run ({}, .top) f = .ok s ∧ s.2 ≠ .top

/-- What happens at the end of a file without the end of the components: an exception outside of the lists, an endless loop in a list. -/
theorem end_of_file {f : File} (hf : NoEnd f) (s : RState × Mode) :
    readLines s f = (run s f >>= fun s' => if s'.2 = .top then .throw else .diverge) := by
  have h := readLines_append hf s []
  rw [List.append_nil] at h
  rw [h]
  congr 1
  funext s'
  obtain ⟨st, mode⟩ := s'
  cases mode <;> rfl

/-- Reading components with an unclosed list never ends. -/
theorem unclosed_diverges {f : File} (h : Unclosed f) : readLines ({}, .top) f = .diverge := by
  obtain ⟨hn, s, hr, hs⟩ := h
  rw [end_of_file hn, hr, Res.ok_bind, if_neg hs]

/-- The first lines of the smallest model. -/
def headLines : File := [cs!"GOCAD Model3d 1"] ++ writeHeader none ++ writeCrs {}

theorem load_head (ls : File) : (loadMl (headLines ++ ls) : Res (Ml.Loaded D)) = (do
    let (st, f) ← readLines ({}, .top) ls
    let m : Ml.Loaded D ← createTsurfs none st
    let meshes ← readSurfaces st.tsurfs f
    pure { m with meshes }) := by
  unfold loadMl headLines
  have e : [cs!"GOCAD Model3d 1"] ++ writeHeader none ++ writeCrs {} ++ ls = cs!"GOCAD Model3d 1" :: (writeHeader none ++ (writeCrs {} ++ ls)) := by simp
  rw [e, gotoKeyword_here (by rfl), Res.ok_bind]
  simp only
  rw [readHeader_good (by intro n hn; cases hn), Res.ok_bind]
  simp only
  rw [readCrs_default, Res.ok_bind]

/-- Every file cut inside a list of numbers makes the loader run for ever. -/
theorem unclosed_load_diverges {f : File} (h : Unclosed f) : (loadMl (headLines ++ f) : Res (Ml.Loaded D)) = .diverge := by
  rw [load_head, unclosed_diverges h]
  rfl

example : Unclosed [cs!"TSURF a", cs!"TFACE 1 boundary a", cs!"REGION 2  Universe ", cs!"  +1  "] := by
  refine ⟨by unfold NoEnd; decide, ({ tsurfs := [⟨cs!"a", cs!"boundary", [0]⟩], names := [(cs!"a", 0)], surfaces := [cs!"a"], outside := [0] }, .outside), ?_, ?_⟩
  · decide +kernel
  · decide

/-- Loading a file with an unclosed list does not end with an exception: the loader does not end. -/
theorem unclosed_not_reported : ¬∀ f : File, Unclosed f → (loadMl (headLines ++ f) : Res (Ml.Loaded D)) = .throw := by
  intro h
  have hu : Unclosed [cs!"REGION 2  Universe "] :=
    ⟨by unfold NoEnd; decide, ({}, .outside), by decide +kernel, by decide⟩
  have := h _ hu
  rw [unclosed_load_diverges hu] at this
  cases this

/-- Partial: a file cut between the lists is rejected.  The full statement is the one refuted by `unclosed_not_reported`. -/
theorem cut_reported_partial {f : File} (hf : NoEnd f) {st : RState} (hr : run ({}, .top) f = .ok (st, .top)) :
    (loadMl (headLines ++ f) : Res (Ml.Loaded D)) = .throw := by
  rw [load_head, end_of_file hf, hr]
  rfl

example : (loadMl (headLines ++ [cs!"TSURF a", cs!"TFACE 1 boundary a"]) : Res (Ml.Loaded Int)) = .throw :=
  cut_reported_partial (by unfold NoEnd; decide) (st := { tsurfs := [⟨cs!"a", cs!"boundary", [0]⟩], names := [(cs!"a", 0)], surfaces := [cs!"a"] })
    (by decide +kernel)

/-- A list that goes on to the end of the components instead of 0 is rejected: `END` is not a number. -/
theorem list_meets_end (st : RState) {mode : Mode} (hm : mode ≠ .top) (rest : File) : readLines (st, mode) (cs!"END" :: rest) = .throw := by
  have h1 : split cs!"END" = [cs!"END"] := by decide
  have h2 : surfaceToken cs!"END" = .throw := by decide
  have h3 : ∀ st, layerToken st cs!"END" = .throw := by
    intro st
    unfold layerToken
    have : readIndex cs!"END" = .throw := by decide
    rw [this]
    rfl
  have h4 : ∀ st, universeToken st cs!"END" = .throw := by
    intro st
    unfold universeToken
    rw [h2]
    rfl
  have key : step (st, mode) cs!"END" = .throw := by
    cases mode with
    | top => exact absurd rfl hm
    | outside => simp only [step, h1, untilZero, h4]; rfl
    | block n acc => simp only [step, h1, untilZero, h2]; rfl
    | layer n acc => simp only [step, h1, untilZero, h3]; rfl
    | faultBlock n acc => simp only [step, h1, untilZero, h3]; rfl
  rw [readLines.eq_3, if_neg (by rintro ⟨h, -⟩; exact hm h), key]
  rfl

/-! ### Regions with one number -/

/-- A region with fewer than two numbers is undefined behaviour, whatever was read before. -/
theorem short_region (st : RState) (name : Str) {numbers : List Nat} (h : numbers.length < 2) : closeBlock st name numbers = .ub := by
  unfold closeBlock relations
  have hl : (sortNat numbers).length < 2 := by rw [(sortNat_perm numbers).length_eq]; exact h
  simp only [hl, if_true]
  rfl

/-- A surface of one triangle. -/
def tri (i : Nat) : Surface Int := { id := i, name := cs!"s", points := [⟨0, 0, 0⟩, ⟨1, 0, 0⟩, ⟨0, 1, i⟩], triangles := [(0, 1, 2)] }

/-- The sides of two surfaces and of two blocks. -/
def someSides : Sides.AllSides :=
  { regions := [((11, 1), true), ((11, 2), false), ((12, 1), false), ((12, 2), true)], outside := [(1, true), (2, false), (3, true)] }

/-- A block bounded by one surface. -/
def single : Model Int := { surfaces := [tri 1], boundaries := [(cs!"A", [1])], blocks := [⟨11, cs!"B", [1], []⟩] }

/-- A model whose block is bounded by one surface can be saved, but loading the file is undefined behaviour. -/
theorem single_surface_block : ¬∀ (m : Model Int) (sides : Sides.AllSides) (f : File), saveMl m sides = .ok f → ∃ L : Ml.Loaded Int, loadMl f = .ok L := by
  intro h
  have h1 : (saveMl single someSides >>= fun f => (loadMl f : Res (Ml.Loaded Int))) = .ub := by decide +kernel
  cases hs : saveMl single someSides with
  | ok f =>
    obtain ⟨L, hL⟩ := h single someSides f hs
    rw [hs, Res.ok_bind, hL] at h1
    cases h1
  | throw => rw [hs] at h1; cases h1
  | ub =>
    have : saveMl single someSides ≠ .ub := by decide +kernel
    exact absurd hs this
  | diverge => rw [hs] at h1; cases h1

/-! ### A model that is kept -/

/-- Two blocks between a model boundary, a horizon and a fault. -/
def full : Model Int :=
  { name := some cs!"my model", surfaces := [tri 1, tri 2, tri 3, tri 4]
    boundaries := [(cs!"top side", [1, 2])]
    faults := [(.normal, some cs!"f", [3])]
    horizons := [(.conformal, some cs!"h", [4])]
    blocks := [⟨11, cs!"upper block", [1, 2], [3]⟩, ⟨12, cs!"lower", [1, 2], []⟩]
    units := [(some cs!"unit", [12, 11])]
    faultBlocks := [(some cs!"side", [12])] }

theorem plain_int : PlainNumbers Int := by
  intro z
  have h0 : ∀ k ∈ keywords, ∀ c ∈ k.head?, c ≠ '-' ∧ ∀ d : Nat, d < 10 → c ≠ digitChar d := by decide
  intro hk
  obtain ⟨n, hz⟩ | ⟨n, hz⟩ : (∃ n, showInt z = showNat n) ∨ ∃ n, showInt z = '-' :: showNat n := by
    cases z with
    | ofNat n => exact Or.inl ⟨n, rfl⟩
    | negSucc n => exact Or.inr ⟨n + 1, rfl⟩
  · obtain ⟨d, r, hd, e⟩ := showNat_cons n
    have hk : showInt z ∈ keywords := hk
    rw [hz, e] at hk
    exact (h0 _ hk _ rfl).2 d hd rfl
  · have hk : showInt z ∈ keywords := hk
    rw [hz] at hk
    exact (h0 _ hk _ rfl).1 rfl

theorem full_good : GoodModel full someSides where
  name := by intro n hn; cases hn; decide
  meshes := by
    intro s hs
    have : s = tri 1 ∨ s = tri 2 ∨ s = tri 3 ∨ s = tri 4 := by simpa [full] using hs
    rcases this with rfl | rfl | rfl | rfl <;> exact ⟨by decide, by decide, by decide⟩
  ids := by decide
  once := by decide +kernel
  known := by decide +kernel
  faultNames := by decide
  horizonNames := by decide
  names := by decide +kernel
  distinct := by decide +kernel
  boundaryItems := by decide
  faultItems := by decide
  horizonItems := by decide
  contacts := by decide
  outside := by decide
  blocks := by
    intro b hb
    have : b = ⟨11, cs!"upper block", [1, 2], [3]⟩ ∨ b = ⟨12, cs!"lower", [1, 2], []⟩ := by simpa [full] using hb
    rcases this with rfl | rfl <;>
      exact ⟨by decide +kernel, by decide, by decide, by decide +kernel, by decide, by decide⟩
  units := by
    intro u hu
    have : u = (some cs!"unit", [12, 11]) := by simpa [full, unitsOf] using hu
    subst this
    exact ⟨⟨_, rfl, by decide +kernel⟩, by decide⟩
  faultBlocks := by
    intro u hu
    have : u = (some cs!"side", [12]) := by simpa [full, faultBlocksOf] using hu
    subst this
    exact ⟨⟨_, rfl, by decide +kernel⟩, by decide⟩
  size := by decide +kernel
  points := by decide +kernel

example : ∃ (f : File) (L : Ml.Loaded Int), saveMl full someSides = .ok f ∧ loadMl f = .ok L ∧ MlRoundTrip.Kept full L :=
  MlRoundTrip.round_trip plain_int full_good

example : ∃ (f : File), writeComponents full someSides = .ok f := by
  have h : (match writeComponents full someSides with
    | .ok _ => true
    | _ => false) = true := by decide +kernel
  cases hs : writeComponents full someSides with
  | ok f => exact ⟨f, rfl⟩
  | throw => rw [hs] at h; cases h
  | ub => rw [hs] at h; cases h
  | diverge => rw [hs] at h; cases h

/-! ### Models that are not kept -/

/-- The outcome of saving and loading. -/
def roundTrip (m : Model Int) (sides : Sides.AllSides) : Res (Ml.Loaded Int) := saveMl m sides >>= fun f => loadMl f

/-- Surface 2 in two model boundaries. -/
def shared : Model Int := { surfaces := [tri 1, tri 2, tri 3], boundaries := [(cs!"A", [1, 2]), (cs!"B", [2, 3])] }

/-- A surface in two model boundaries: the second boundary loses it, and its own surface, the third one, gets the triangles of the shared one. -/
theorem shared_surface : ∃ L, roundTrip shared someSides = .ok L ∧ L.boundaries = [(cs!"A", [0, 1]), (cs!"B", [2])]
    ∧ L.meshes[2]? = some (2, (tri 2).points, (tri 2).triangles) ∧ (tri 2).points ≠ (tri 3).points := by
  have h : (match roundTrip shared someSides with
    | .ok L => decide (L.boundaries = [(cs!"A", [0, 1]), (cs!"B", [2])] ∧ L.meshes[2]? = some (2, (tri 2).points, (tri 2).triangles))
    | _ => false) = true := by decide +kernel
  cases hr : roundTrip shared someSides with
  | ok L =>
    rw [hr] at h
    obtain ⟨h1, h2⟩ := of_decide_eq_true h
    exact ⟨L, rfl, h1, h2, by decide⟩
  | throw => rw [hr] at h; cases h
  | ub => rw [hr] at h; cases h
  | diverge => rw [hr] at h; cases h

/-- Collections are not always kept: two surfaces in each of the boundaries, but one in the second boundary after loading. -/
theorem collections_not_kept : ¬∀ (m : Model Int) (sides : Sides.AllSides) (L : Ml.Loaded Int), roundTrip m sides = .ok L →
    L.boundaries.map (fun b => b.2.length) = m.boundaries.map fun b => b.2.length := by
  intro h
  obtain ⟨L, hr, hb, -⟩ := shared_surface
  have := h _ _ _ hr
  rw [hb] at this
  exact absurd this (by decide)

/-- A fault of every type. -/
def oneFault (k : FaultType) : Model Int := { surfaces := [tri 1], faults := [(k, some cs!"f", [1])] }

/-- Strike-slip, listric and decollement faults come back without a type. -/
theorem fault_types_not_kept (k : FaultType) : ∃ L, roundTrip (oneFault k) someSides = .ok L ∧ L.faults = [(MlRoundTrip.keptFault k, cs!"f", [0])] := by
  have h : (match roundTrip (oneFault k) someSides with
    | .ok L => decide (L.faults = [(MlRoundTrip.keptFault k, cs!"f", [0])])
    | _ => false) = true := by cases k <;> decide +kernel
  cases hr : roundTrip (oneFault k) someSides with
  | ok L => rw [hr] at h; exact ⟨L, rfl, of_decide_eq_true h⟩
  | throw => rw [hr] at h; cases h
  | ub => rw [hr] at h; cases h
  | diverge => rw [hr] at h; cases h

/-- Models with an erosion or baselap horizon cannot be saved, as soon as the horizon has a surface that is in no collection before it. -/
theorem erosion_unsaveable {m : Model D} {sides : Sides.AllSides} {h : Contact × Option Str × List Nat} (hh : h ∈ horizonsOf m)
    (hk : h.1 = .erosion ∨ h.1 = .baselap) {f : File} : saveMl m sides ≠ .ok f := by
  intro hs
  unfold saveMl at hs
  obtain ⟨c, -, hs⟩ := Res.bind_eq_ok.1 hs
  obtain ⟨w, hw, -⟩ := Res.bind_eq_ok.1 hs
  unfold writeModelSurfaces at hw
  obtain ⟨colls, hc, -⟩ := Res.bind_eq_ok.1 hw
  have hmem : (contactText h.1, nameValue h.2.1, h.2.2) ∈ collections m := by
    unfold collections
    exact List.mem_append_right _ (List.mem_map.2 ⟨h, hh, rfl⟩)
  have key : ∀ (cs : List (Res Str × Res Str × List Nat)) (out : List File),
      Res.mapM' (fun (c : Res Str × Res Str × List Nat) => do
        let name ← c.2.1
        let kind ← c.1
        let ss ← Res.mapM' (surfaceOf m) c.2.2
        pure (writeTSurf kind name ss)) cs = .ok out → ∀ c ∈ cs, ∃ k, c.1 = .ok k := by
    intro cs
    induction cs with
    | nil => intro out _ c hc; cases hc
    | cons a cs ih =>
      intro out ho c hc
      rw [Res.mapM'_cons] at ho
      obtain ⟨x, hx, ho⟩ := Res.bind_eq_ok.1 ho
      obtain ⟨xs, hxs, -⟩ := Res.bind_eq_ok.1 ho
      rcases List.mem_cons.1 hc with rfl | hc
      · obtain ⟨_, -, hx⟩ := Res.bind_eq_ok.1 hx
        obtain ⟨k, hk, -⟩ := Res.bind_eq_ok.1 hx
        exact ⟨k, hk⟩
      · exact ih xs hxs c hc
  obtain ⟨k, hk'⟩ := key _ _ hc _ hmem
  rcases hk with e | e <;> rw [e] at hk' <;> cases hk'

example : ∀ f, saveMl ({ surfaces := [tri 1], horizons := [(.erosion, some cs!"h", [1])] } : Model Int) someSides ≠ .ok f :=
  fun f => erosion_unsaveable (h := (.erosion, some cs!"h", [1])) (by decide) (Or.inl rfl)

/-- Not every file saved can be loaded: a model boundary without surfaces is announced, but has no kind, and loading throws. -/
def emptyBoundary : Model Int := { surfaces := [tri 1], boundaries := [(cs!"A", [1]), (cs!"B", [])] }

theorem empty_boundary_throws : roundTrip emptyBoundary someSides = .throw ∧ ∃ f, saveMl emptyBoundary someSides = .ok f := by
  refine ⟨by decide +kernel, ?_⟩
  have h : (match saveMl emptyBoundary someSides with
    | .ok _ => true
    | _ => false) = true := by decide +kernel
  cases hs : saveMl emptyBoundary someSides with
  | ok f => exact ⟨f, rfl⟩
  | throw => rw [hs] at h; cases h
  | ub => rw [hs] at h; cases h
  | diverge => rw [hs] at h; cases h

/-- Two model boundaries whose names differ by a blank. -/
def mergedNames : Model Int := { surfaces := [tri 1, tri 2], boundaries := [(cs!"a b", [1]), (cs!"a_b", [2])] }

theorem merged_names_throw : roundTrip mergedNames someSides = .throw ∧ ∃ f, saveMl mergedNames someSides = .ok f := by
  refine ⟨by decide +kernel, ?_⟩
  have h : (match saveMl mergedNames someSides with
    | .ok _ => true
    | _ => false) = true := by decide +kernel
  cases hs : saveMl mergedNames someSides with
  | ok f => exact ⟨f, rfl⟩
  | throw => rw [hs] at h; cases h
  | ub => rw [hs] at h; cases h
  | diverge => rw [hs] at h; cases h

/-- A block named "Universe". -/
def universeBlock : Model Int := { surfaces := [tri 1, tri 2], boundaries := [(cs!"A", [1, 2])], blocks := [⟨11, cs!"Universe", [1, 2], []⟩] }

/-- A block named "Universe" is lost. -/
theorem universe_block_lost : ∃ L, roundTrip universeBlock someSides = .ok L ∧ L.blocks = [] := by
  have h : (match roundTrip universeBlock someSides with
    | .ok L => decide (L.blocks = [])
    | _ => false) = true := by decide +kernel
  cases hr : roundTrip universeBlock someSides with
  | ok L => rw [hr] at h; exact ⟨L, rfl, of_decide_eq_true h⟩
  | throw => rw [hr] at h; cases h
  | ub => rw [hr] at h; cases h
  | diverge => rw [hr] at h; cases h

/-- Surfaces in no collection. -/
def looseSurfaces : Model Int := { surfaces := [tri 1, { tri 2 with name := cs!"t" }] }

/-- Surfaces in no collection come back each in a model boundary, and both in a further one. -/
theorem loose_surfaces_collected : ∃ L, roundTrip looseSurfaces someSides = .ok L
    ∧ L.boundaries = [(cs!"s", [0]), (cs!"t", [1]), (cs!"undefined boundary", [0, 1])] := by
  have h : (match roundTrip looseSurfaces someSides with
    | .ok L => decide (L.boundaries = [(cs!"s", [0]), (cs!"t", [1]), (cs!"undefined boundary", [0, 1])])
    | _ => false) = true := by decide +kernel
  cases hr : roundTrip looseSurfaces someSides with
  | ok L => rw [hr] at h; exact ⟨L, rfl, of_decide_eq_true h⟩
  | throw => rw [hr] at h; cases h
  | ub => rw [hr] at h; cases h
  | diverge => rw [hr] at h; cases h

/-- Surface 2 is only in another kind of collection. -/
def otherCollection : Model Int :=
  { surfaces := [tri 1, tri 2], boundaries := [(cs!"A", [1])], others := [2], blocks := [⟨11, cs!"B", [1, 2], []⟩] }

/-- A surface that is only in another kind of collection and bounds a block has no number: such a model cannot be saved. -/
theorem other_collection_unsaveable : saveMl otherCollection someSides = .throw := by decide +kernel

end Verif.Props.MlCases
