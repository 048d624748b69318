import Verif.Lemmas.GocadBody

/-!
# Bodies of TSurf, PLine and VSet objects: numbering base, depth convention, ATOM (C08, C09, C15)
-/

namespace Verif.Props.GocadBody

open Verif Verif.Gocad Verif.GocadMesh Verif.GocadBody

variable {D : Type} [Num D]

theorem goodCrs_z (z : Bool) : GoodCrs { zPos := z } := by
  cases z <;> exact ⟨by decide, by decide, by decide, by decide, by decide⟩

/-- A `.ts` file with one object: header, coordinate system with the given convention, property header, body numbered from `base`. -/
def fileTS (z : Bool) (base : Nat) (name : Option Str) (names : List Str) (rs : List (Rec D)) : File :=
  [cs!"GOCAD TSurf 1"] ++ writeHeader name ++ writeCrs { zPos := z } ++ writeProps D names ++ [cs!"TFACE"]
    ++ render base 0 rs ++ [cs!"END"]

/-- The state in which the reader enters the body. -/
def start (z : Bool) (name : Option Str) (names : List Str) : TSurf D where
  name := name
  crs := { zPos := z }
  props := readBackProps names
  attrs := (readBackProps names : PropHeader D).names.map fun _ => []

/-- The loaded mesh is a function of what the records say; the numbering base does not appear in it. -/
theorem load_file [LawfulNum D] {z : Bool} {base : Nat} {name : Option Str} {names : List Str}
    (hname : ∀ n, name = some n → GoodObjectName n) (hnames : GoodNames names) (p : Pt D) (vals : List D) (rs : List (Rec D))
    (hf : Fits base 0 (.vrtx p vals :: rs)) :
    loadTS (fileTS z base name names (.vrtx p vals :: rs)) =
      (meaning (start z name names) (.vrtx p vals :: rs) >>= fun ts => buildSurface {} (tsClose ts)) := by
  have e : fileTS z base name names (.vrtx p vals :: rs) = cs!"GOCAD TSurf 1" :: (writeHeader name ++ (writeCrs { zPos := z } ++
      (writeProps D names ++ (cs!"TFACE" :: (render base 0 (.vrtx p vals :: rs) ++ cs!"END" :: []))))) := by
    simp [fileTS]
  have hcrs : ∀ rest : File, readCrs (writeCrs { zPos := z } ++ rest) = .ok ({ zPos := z }, rest) := fun rest =>
    readCrs_writeCrs (goodCrs_z z) rest
  have hread : readTSurf (fileTS z base name names (.vrtx p vals :: rs)) =
      (meaning (start z name names) (.vrtx p vals :: rs) >>= fun ts' => .ok (some (tsClose (setOff base ts'), []))) := by
    rw [e]
    unfold readTSurf
    rw [gotoKeyword?, if_pos (by rfl)]
    simp only
    rw [readHeader_good hname, Res.ok_bind]
    simp only
    rw [hcrs, Res.ok_bind]
    simp only
    rw [readPropHeader_writeProps hnames, Res.ok_bind]
    simp only
    unfold readTfaces
    rw [gotoKeyword_skip (fun l hl => classLines_tface hl), gotoKeyword_here (by rfl), Res.ok_bind]
    simp only
    rw [read_body p vals rs rfl hf []]
    rw [Res.bind_assoc']
    rfl
  obtain ⟨k, hk⟩ : ∃ k, (fileTS z base name names (.vrtx p vals :: rs)).length = k + 1 := ⟨_, by rw [e]; rfl⟩
  unfold loadTS
  rw [hk, loadTSLoop, hread]
  cases meaning (start z name names) (.vrtx p vals :: rs) with
  | ok ts =>
    simp only [Res.ok_bind]
    have hb : buildSurface ({} : Loaded Tri D) (tsClose (setOff base ts)) = buildSurface {} (tsClose ts) := rfl
    rw [hb]
    cases buildSurface ({} : Loaded Tri D) (tsClose ts) with
    | ok m => simp only [Res.ok_bind]; exact loadTSLoop_nil m
    | throw => rfl
    | ub => rfl
    | diverge => rfl
  | throw => rfl
  | ub => rfl
  | diverge => rfl

/-- **C08 for TSurf.** Two numberings of the same records, one from `b1` and one from `b2`, load as the same mesh, or fail in the same
way.  (The records start with a vertex, as the format requires: the reader learns the base from it.) -/
theorem base_independent [LawfulNum D] {z : Bool} {b1 b2 : Nat} {name : Option Str} {names : List Str}
    (hname : ∀ n, name = some n → GoodObjectName n) (hnames : GoodNames names) (p : Pt D) (vals : List D) (rs : List (Rec D))
    (h1 : Fits b1 0 (.vrtx p vals :: rs)) (h2 : Fits b2 0 (.vrtx p vals :: rs)) :
    (loadTS (fileTS z b1 name names (.vrtx p vals :: rs)) : Res (Loaded Tri D)) = loadTS (fileTS z b2 name names (.vrtx p vals :: rs)) := by
  rw [load_file hname hnames p vals rs h1, load_file hname hnames p vals rs h2]

/-- A body with every kind of record, for the examples. -/
def sampleRecs : List (Rec Int) :=
  [.vrtx ⟨1, 0, 0⟩ [5], .vrtx ⟨0, 1, 0⟩ [6], .atom 0 [7], .trgl 0 1 2, .tface, .trgl 1 2 0, .bstone 1, .border 9 1 2]

theorem fits_sample (b : Nat) (h : b ≤ 1000) : Fits b 0 (.vrtx ⟨0, 0, 0⟩ [4] :: sampleRecs) := by
  refine ⟨by simp [sampleRecs, W]; omega, ?_⟩
  intro r hr
  simp only [sampleRecs, List.mem_cons, List.not_mem_nil, or_false] at hr
  rcases hr with rfl | rfl | rfl | rfl | rfl | rfl | rfl | rfl | rfl <;>
    refine ⟨by simp [Rec.refs, W] <;> omega, ?_⟩ <;> intro id a b e <;> cases e
  decide

example : Fits 0 0 (.vrtx ⟨0, 0, 0⟩ [4] :: sampleRecs) ∧ Fits 17 0 (.vrtx ⟨0, 0, 0⟩ [4] :: sampleRecs) :=
  ⟨fits_sample 0 (by omega), fits_sample 17 (by omega)⟩

/-- The hypothesis that the records start with a vertex cannot be dropped: a triangle before the first vertex is decoded with the
default base 1, so the numbering matters. -/
theorem base_matters_before_first_vertex :
    (readTfacesLoop ({} : TSurf Int) [cs!"TRGL 0 1 2", cs!"VRTX 0 0 0 0", cs!"END"] >>= fun r => .ok r.1.triangles) ≠
    (readTfacesLoop ({} : TSurf Int) [cs!"TRGL 1 2 3", cs!"VRTX 1 0 0 0", cs!"END"] >>= fun r => .ok r.1.triangles) := by
  decide +kernel

/-! ## ATOM -/

/-- Number of vertices defined by records. -/
def countDefs (rs : List (Rec D)) : Nat := (rs.filter Rec.defines).length

theorem meaning_length {ts ts' : TSurf D} {rs : List (Rec D)} (h : meaning ts rs = .ok ts') :
    ts'.points.length = ts.points.length + countDefs rs := by
  induction rs generalizing ts with
  | nil => simp only [meaning, Res.foldM'_nil, Res.ok.injEq] at h; subst h; simp [countDefs]
  | cons r rs ih =>
    simp only [meaning, Res.foldM'_cons] at h
    obtain ⟨t1, h1, h2⟩ := Res.bind_eq_ok.1 h
    have := step_length h1
    rw [ih h2, this]
    cases hd : r.defines <;> simp [countDefs, hd] <;> omega

theorem step_prefix {ts ts' : TSurf D} {r : Rec D} (h : r.step ts = .ok ts') : ts.points <+: ts'.points := by
  cases r with
  | vrtx p vals =>
    simp only [Rec.step, Res.bind_eq_ok, Res.pure_eq, Res.ok.injEq] at h
    obtain ⟨a, _, rfl⟩ := h; exact List.prefix_append _ _
  | atom k vals =>
    simp only [Rec.step, Res.bind_eq_ok, Res.pure_eq, Res.ok.injEq] at h
    obtain ⟨p, _, a, _, rfl⟩ := h; exact List.prefix_append _ _
  | trgl a b c => simp only [Rec.step, Res.pure_eq, Res.ok.injEq] at h; subst h; exact List.prefix_rfl
  | bstone a => simp only [Rec.step, Res.pure_eq, Res.ok.injEq] at h; subst h; exact List.prefix_rfl
  | border id a b => simp only [Rec.step, Res.pure_eq, Res.ok.injEq] at h; subst h; exact List.prefix_rfl
  | tface => simp only [Rec.step, Res.pure_eq, Res.ok.injEq] at h; subst h; exact List.prefix_rfl

theorem meaning_prefix {ts ts' : TSurf D} {rs : List (Rec D)} (h : meaning ts rs = .ok ts') : ts.points <+: ts'.points := by
  induction rs generalizing ts with
  | nil => simp only [meaning, Res.foldM'_nil, Res.ok.injEq] at h; subst h; exact List.prefix_rfl
  | cons r rs ih =>
    simp only [meaning, Res.foldM'_cons] at h
    obtain ⟨t1, h1, h2⟩ := Res.bind_eq_ok.1 h
    exact (step_prefix h1).trans (ih h2)

theorem getElem?_of_prefix {α : Type} {a b : List α} (h : a <+: b) {i : Nat} (hi : i < a.length) : b[i]? = a[i]? := by
  obtain ⟨c, rfl⟩ := h
  rw [List.getElem?_append_left hi]

/-- **C15, copy.** When a file with an ATOM record loads, the vertex the record defines has the coordinates of the vertex it
references, which was defined before. -/
theorem atom_copies [LawfulNum D] {z : Bool} {base : Nat} {name : Option Str} {names : List Str}
    (hname : ∀ n, name = some n → GoodObjectName n) (hnames : GoodNames names) (p : Pt D) (v0 : List D)
    (pre : List (Rec D)) (k : Nat) (vals : List D) (post : List (Rec D))
    (hf : Fits base 0 (.vrtx p v0 :: (pre ++ .atom k vals :: post))) {l : Loaded Tri D}
    (hl : loadTS (fileTS z base name names (.vrtx p v0 :: (pre ++ .atom k vals :: post))) = .ok l) :
    k < 1 + countDefs pre ∧ ∃ q, l.points[k]? = some q ∧ l.points[1 + countDefs pre]? = some q := by
  rw [load_file hname hnames p v0 _ hf] at hl
  obtain ⟨ts, hm, hb⟩ := Res.bind_eq_ok.1 hl
  have hpts : l.points = ts.points := by
    unfold buildSurface at hb
    obtain ⟨tris, _, hb⟩ := Res.bind_eq_ok.1 hb
    obtain ⟨st, _, hb⟩ := Res.bind_eq_ok.1 hb
    simp only [Res.pure_eq, Res.ok.injEq] at hb
    rw [← hb]; simp [tsClose]
  rw [hpts]
  have e : Rec.vrtx p v0 :: (pre ++ .atom k vals :: post) = (.vrtx p v0 :: pre) ++ (.atom k vals :: post) := rfl
  rw [e] at hm
  simp only [meaning, Res.foldM'_append] at hm
  obtain ⟨t1, h1, h2⟩ := Res.bind_eq_ok.1 hm
  have hlen : t1.points.length = 1 + countDefs pre := by
    rw [meaning_length (rs := .vrtx p v0 :: pre) h1]
    simp [start, countDefs, List.filter_cons, Rec.defines]; omega
  simp only [Res.foldM'_cons] at h2
  obtain ⟨t2, hs, h3⟩ := Res.bind_eq_ok.1 h2
  simp only [Rec.step, Res.bind_eq_ok, Res.pure_eq, Res.ok.injEq] at hs
  obtain ⟨q, hq, attrs, _, rfl⟩ := hs
  have hq' := Res.at_eq_ok.1 hq
  have hk : k < t1.points.length := by
    rcases Nat.lt_or_ge k t1.points.length with h | h
    · exact h
    · rw [List.getElem?_eq_none h] at hq'; exact absurd hq' (by simp)
  have hpre := meaning_prefix (rs := post) h3
  refine ⟨by omega, q, ?_, ?_⟩
  · rw [getElem?_of_prefix hpre (by simp; omega), List.getElem?_append_left hk, hq']
  · rw [getElem?_of_prefix hpre (by simp; omega), ← hlen]
    simp

/-- **C15, forward reference.** When everything before an ATOM record is fine and the record references a vertex not yet defined,
loading the file raises an exception. -/
theorem atom_forward_throws [LawfulNum D] {z : Bool} {base : Nat} {name : Option Str} {names : List Str}
    (hname : ∀ n, name = some n → GoodObjectName n) (hnames : GoodNames names) (p : Pt D) (v0 : List D)
    (pre : List (Rec D)) (k : Nat) (vals : List D) (post : List (Rec D))
    (hf : Fits base 0 (.vrtx p v0 :: (pre ++ .atom k vals :: post))) {ts : TSurf D}
    (hok : meaning (start z name names) (.vrtx p v0 :: pre) = .ok ts) (hk : 1 + countDefs pre ≤ k) :
    (loadTS (fileTS z base name names (.vrtx p v0 :: (pre ++ .atom k vals :: post))) : Res (Loaded Tri D)) = .throw := by
  rw [load_file hname hnames p v0 _ hf]
  have e : Rec.vrtx p v0 :: (pre ++ .atom k vals :: post) = (.vrtx p v0 :: pre) ++ (.atom k vals :: post) := rfl
  have hlen : ts.points.length = 1 + countDefs pre := by
    rw [meaning_length hok]
    simp [start, countDefs, List.filter_cons, Rec.defines]; omega
  simp only [meaning] at hok
  rw [e]
  simp only [meaning, Res.foldM'_append, hok, Res.ok_bind, Res.foldM'_cons, Rec.step]
  rw [Res.at_of_ge (by omega)]
  rfl

example : (loadTS (fileTS true 1 none [cs!"p"] (.vrtx ⟨0, 0, 0⟩ [4] :: sampleRecs)) : Res (Loaded Tri Int)) = .ok
    { points := [⟨0, 0, 0⟩, ⟨1, 0, 0⟩, ⟨0, 1, 0⟩, ⟨0, 0, 0⟩], cells := [(0, 1, 2), (1, 2, 0)],
      store := [(cs!"p", ⟨1, -99999, [[4], [5], [6], [7]]⟩)] } := by
  decide +kernel

example : ∃ ts : TSurf Int, meaning (start true none []) [.vrtx ⟨0, 0, 0⟩ [], .vrtx ⟨1, 0, 0⟩ []] = .ok ts := ⟨_, rfl⟩

/-! ## Depth -/

/-- The records with the third coordinate of every vertex negated. -/
def negZ : Rec D → Rec D
  | .vrtx p vals => .vrtx { p with z := Num.neg p.z } vals
  | r => r

/-- The state with another depth convention. -/
def setZ (b : Bool) (ts : TSurf D) : TSurf D := { ts with crs := { ts.crs with zPos := b } }

theorem step_depth (hneg : ∀ d : D, Num.round (Num.neg d) = Num.neg (Num.round d)) (ts : TSurf D) (r : Rec D) :
    r.step (setZ false ts) = ((negZ r).step (setZ true ts) >>= fun t => .ok (setZ false t)) := by
  cases r with
  | vrtx p vals => simp [Rec.step, negZ, setZ, pointOf, hneg]
  | atom k vals => simp [Rec.step, negZ, setZ]
  | trgl a b c => rfl
  | bstone a => rfl
  | border id a b => rfl
  | tface => rfl

theorem step_keeps_z {ts ts' : TSurf D} {r : Rec D} (h : r.step ts = .ok ts') : ts'.crs = ts.crs := by
  cases r with
  | vrtx p vals =>
    simp only [Rec.step, Res.bind_eq_ok, Res.pure_eq, Res.ok.injEq] at h
    obtain ⟨a, _, rfl⟩ := h; rfl
  | atom k vals =>
    simp only [Rec.step, Res.bind_eq_ok, Res.pure_eq, Res.ok.injEq] at h
    obtain ⟨p, _, a, _, rfl⟩ := h; rfl
  | trgl a b c => simp only [Rec.step, Res.pure_eq, Res.ok.injEq] at h; subst h; rfl
  | bstone a => simp only [Rec.step, Res.pure_eq, Res.ok.injEq] at h; subst h; rfl
  | border id a b => simp only [Rec.step, Res.pure_eq, Res.ok.injEq] at h; subst h; rfl
  | tface => simp only [Rec.step, Res.pure_eq, Res.ok.injEq] at h; subst h; rfl

theorem meaning_depth (hneg : ∀ d : D, Num.round (Num.neg d) = Num.neg (Num.round d)) (ts : TSurf D) (rs : List (Rec D)) :
    meaning (setZ false ts) rs = (meaning (setZ true ts) (rs.map negZ) >>= fun t => .ok (setZ false t)) := by
  induction rs generalizing ts with
  | nil => rfl
  | cons r rs ih =>
    simp only [meaning, List.map_cons, Res.foldM'_cons] at ih ⊢
    rw [step_depth hneg ts r]
    cases h : (negZ r).step (setZ true ts) with
    | ok t =>
      simp only [Res.ok_bind]
      have hz : t.crs = (setZ true ts).crs := step_keeps_z h
      have ht : t = setZ true t := by
        cases t; simp only [setZ] at hz ⊢; subst hz; rfl
      rw [ih t]
      conv => rhs; rw [ht]
    | throw => rfl
    | ub => rfl
    | diverge => rfl

theorem fits_negZ {base : Nat} {rs : List (Rec D)} (h : Fits base 0 rs) : Fits base 0 (rs.map negZ) := by
  refine ⟨by simpa using h.1, ?_⟩
  intro r hr
  obtain ⟨r', hr', rfl⟩ := List.mem_map.1 hr
  have := h.2 r' hr'
  cases r' with
  | vrtx p vals => exact ⟨by simp [negZ, Rec.refs], by simp [negZ]⟩
  | atom k vals => exact this
  | trgl a b c => exact this
  | bstone a => exact this
  | border id a b => exact this
  | tface => exact this

/-- **C09 for TSurf.** A file that says `ZPOSITIVE Depth` loads exactly as the file that says `ZPOSITIVE Elevation` and has every third
coordinate negated.  (Formatting is assumed to commute with the change of sign.) -/
theorem depth_ts [LawfulNum D] (hneg : ∀ d : D, Num.round (Num.neg d) = Num.neg (Num.round d)) {base : Nat} {name : Option Str}
    {names : List Str} (hname : ∀ n, name = some n → GoodObjectName n) (hnames : GoodNames names) (p : Pt D) (vals : List D)
    (rs : List (Rec D)) (hf : Fits base 0 (.vrtx p vals :: rs)) :
    (loadTS (fileTS false base name names (.vrtx p vals :: rs)) : Res (Loaded Tri D)) =
      loadTS (fileTS true base name names ((.vrtx p vals :: rs).map negZ)) := by
  rw [load_file hname hnames p vals rs hf]
  have h2 := fits_negZ hf
  simp only [List.map_cons, negZ] at h2
  simp only [List.map_cons, negZ]
  rw [load_file hname hnames _ vals _ h2]
  have h := meaning_depth hneg (start true name names) (.vrtx p vals :: rs)
  have e1 : setZ false (start true name names) = (start false name names : TSurf D) := rfl
  have e2 : setZ true (start true name names) = (start true name names : TSurf D) := rfl
  rw [e1, e2] at h
  rw [h, Res.bind_assoc']
  simp only [List.map_cons, negZ, Res.ok_bind]
  congr 1

example : ∀ d : Int, (Num.round (Num.neg d) : Int) = Num.neg (Num.round d) := fun _ => rfl

/-! ## PLine -/

/-- A `.pl` file with one object. -/
def filePL (z : Bool) (base : Nat) (name : Option Str) (rs : List (ERec D)) (tail : Tail) : File :=
  [cs!"GOCAD PLine 1"] ++ writeHeader name ++ writeCrs { zPos := z } ++ [cs!"ILINE"] ++ renderE base 0 rs ++ tail.text

/-- The state in which the reader enters the body. -/
def startE (z : Bool) (name : Option Str) : ECurve D := { name := name, crs := { zPos := z } }

theorem read_filePL [LawfulNum D] {z : Bool} {base : Nat} {name : Option Str} (hname : ∀ n, name = some n → GoodObjectName n) (p : Pt D)
    (rs : List (ERec D)) (hf : FitsE base (.vrtx p :: rs)) (tail : Tail) :
    readECurve (filePL z base name (.vrtx p :: rs) tail) =
      .ok (some (setOffE base (meaningE (startE z name) (.vrtx p :: rs)), tail.rest)) := by
  have e : filePL z base name (.vrtx p :: rs) tail = cs!"GOCAD PLine 1" :: (writeHeader name ++ (writeCrs { zPos := z } ++
      (cs!"ILINE" :: (renderE base 0 (.vrtx p :: rs) ++ tail.text)))) := by
    simp [filePL]
  have hcrs : ∀ rest : File, readCrs (writeCrs { zPos := z } ++ rest) = .ok ({ zPos := z }, rest) := fun rest =>
    readCrs_writeCrs (goodCrs_z z) rest
  rw [e]
  unfold readECurve
  rw [gotoKeyword?, if_pos (by rfl)]
  simp only
  rw [readHeader_good hname, Res.ok_bind]
  simp only
  rw [hcrs, Res.ok_bind]
  simp only
  unfold readIlines
  rw [gotoKeyword_here (by rfl), Res.ok_bind]
  simp only
  rw [read_bodyE p rs rfl hf tail]
  rfl

theorem load_filePL [LawfulNum D] {z : Bool} {base : Nat} {name : Option Str} (hname : ∀ n, name = some n → GoodObjectName n) (p : Pt D)
    (rs : List (ERec D)) (hf : FitsE base (.vrtx p :: rs)) (tail : Tail) (ht : tail.rest = []) :
    loadPL (filePL z base name (.vrtx p :: rs) tail) = buildCurve {} (meaningE (startE z name) (.vrtx p :: rs)) := by
  obtain ⟨k, hk⟩ : ∃ k, (filePL z base name (.vrtx p :: rs) tail).length = k + 1 := ⟨_, rfl⟩
  unfold loadPL
  rw [hk, loadPLLoop, read_filePL hname p rs hf, Res.ok_bind]
  simp only
  have hb : ∀ ec : ECurve D, buildCurve ({} : Loaded Edge D) (setOffE base ec) = buildCurve {} ec := fun _ => rfl
  rw [hb, ht]
  cases buildCurve ({} : Loaded Edge D) (meaningE (startE z name) (.vrtx p :: rs)) <;> rfl

/-- **C08 for PLine.** -/
theorem base_independent_pl [LawfulNum D] {z : Bool} {b1 b2 : Nat} {name : Option Str}
    (hname : ∀ n, name = some n → GoodObjectName n) (p : Pt D) (rs : List (ERec D))
    (h1 : FitsE b1 (.vrtx p :: rs)) (h2 : FitsE b2 (.vrtx p :: rs)) :
    (loadPL (filePL z b1 name (.vrtx p :: rs) (.theEnd [])) : Res (Loaded Edge D)) = loadPL (filePL z b2 name (.vrtx p :: rs) (.theEnd [])) := by
  rw [load_filePL hname p rs h1 _ rfl, load_filePL hname p rs h2 _ rfl]

/-- The records with the third coordinate of every vertex negated. -/
def negZE : ERec D → ERec D
  | .vrtx p => .vrtx { p with z := Num.neg p.z }
  | .pvrtx p vals => .pvrtx { p with z := Num.neg p.z } vals
  | r => r

theorem meaningE_depth (hneg : ∀ d : D, Num.round (Num.neg d) = Num.neg (Num.round d)) (rs : List (ERec D)) (a b : ECurve D)
    (h : a = { b with crs := a.crs }) (ha : a.crs.zPos = false) (hb : b.crs.zPos = true) :
    (meaningE a rs).points = (meaningE b (rs.map negZE)).points ∧ (meaningE a rs).edges = (meaningE b (rs.map negZE)).edges ∧
      (meaningE a rs).name = (meaningE b (rs.map negZE)).name := by
  induction rs generalizing a b with
  | nil => rw [h]; exact ⟨rfl, rfl, rfl⟩
  | cons r rs ih =>
    simp only [meaningE, List.foldl_cons, List.map_cons]
    refine ih (r.step a) ((negZE r).step b) ?_ ?_ ?_
    · cases r with
      | vrtx p =>
        simp only [ERec.step, negZE, pointOf, ha, hb, hneg, if_true, Bool.false_eq_true, if_false]
        rw [h]
      | pvrtx p vals =>
        simp only [ERec.step, negZE, pointOf, ha, hb, hneg, if_true, Bool.false_eq_true, if_false]
        rw [h]
      | seg i j => simp only [ERec.step, negZE]; rw [h]
      | iline => exact h
    · cases r <;> exact ha
    · cases r <;> exact hb

/-- **C09 for PLine.** -/
theorem depth_pl [LawfulNum D] (hneg : ∀ d : D, Num.round (Num.neg d) = Num.neg (Num.round d)) {base : Nat} {name : Option Str}
    (hname : ∀ n, name = some n → GoodObjectName n) (p : Pt D) (rs : List (ERec D)) (hf : FitsE base (.vrtx p :: rs)) :
    (loadPL (filePL false base name (.vrtx p :: rs) (.theEnd [])) : Res (Loaded Edge D)) =
      loadPL (filePL true base name ((.vrtx p :: rs).map negZE) (.theEnd [])) := by
  have hf2 : FitsE base (.vrtx { p with z := Num.neg p.z } :: rs.map negZE) := by
    refine ⟨hf.1, ?_⟩
    intro a b h
    rcases List.mem_cons.1 h with h | h
    · exact absurd h (by simp)
    · obtain ⟨r, hr, e⟩ := List.mem_map.1 h
      cases r with
      | vrtx p => simp [negZE] at e
      | pvrtx p vals => simp [negZE] at e
      | seg i j => simp only [negZE, ERec.seg.injEq] at e; exact hf.2 a b (by rw [← e.1, ← e.2]; simp [hr])
      | iline => simp [negZE] at e
  rw [load_filePL hname p rs hf _ rfl]
  simp only [List.map_cons, negZE]
  rw [load_filePL hname _ _ hf2 _ rfl]
  obtain ⟨h1, h2, h3⟩ := meaningE_depth hneg (.vrtx p :: rs) (startE false name) (startE true name) rfl rfl rfl
  simp only [List.map_cons, negZE] at h1 h2 h3
  unfold buildCurve
  rw [h1, h2, h3]

example : FitsE 3 (.vrtx ⟨0, 0, 0⟩ :: [.vrtx ⟨1, 1, 1⟩, .seg 0 1, .iline, .vrtx ⟨2, 2, 2⟩, .seg 1 2] : List (ERec Int)) := by
  refine ⟨by simp [W], ?_⟩
  intro a b h
  simp only [List.mem_cons, List.not_mem_nil, or_false, reduceCtorEq, false_or, ERec.seg.injEq] at h
  rcases h with ⟨rfl, rfl⟩ | ⟨rfl, rfl⟩ <;> decide

/-! ## VSet -/

/-- Vertex lines of a point set; numbers from `base`. -/
def renderV (base : Nat) : Nat → List (Pt D × List D) → File
  | _, [] => []
  | n, (p, vals) :: rs => (cs!"PVRTX" ++ spaced (showNat (base + n) :: (p.toks ++ vals.map Num.fmt))) :: renderV base (n + 1) rs

/-- A `.vs` file with one object. -/
def fileVS (z : Bool) (base : Nat) (name : Option Str) (names : List Str) (rs : List (Pt D × List D)) : File :=
  [cs!"GOCAD VSet 1"] ++ writeHeader name ++ writeCrs { zPos := z } ++ writeProps D names ++ renderV base 0 rs ++ [cs!"END"]

/-- What the vertices say. -/
def meaningV (s : VSet D) (rs : List (Pt D × List D)) : Res (VSet D) :=
  Res.foldM' (fun s (r : Pt D × List D) => do
    let attrs ← readProperties s.props.esizes s.attrs (r.2.map Num.fmt)
    pure { s with points := s.points ++ [pointOf s.crs.zPos r.1], attrs }) s rs

/-- The state in which the reader enters the body. -/
def startV (z : Bool) (name : Option Str) (names : List Str) : VSet D where
  name := name
  crs := { zPos := z }
  props := readBackProps names
  attrs := (readBackProps names : PropHeader D).names.map fun _ => []

/-- Same state whatever the offset. -/
def setOffV (b : Nat) (s : VSet D) : VSet D := { s with offset := b }

theorem read_renderV [LawfulNum D] {base : Nat} (rs : List (Pt D × List D)) (n : Nat) (s : VSet D) (hW : base + n + rs.length ≤ W)
    (rest : File) :
    ∃ o, readVSetLoop s (renderV base n rs ++ cs!"END" :: rest) =
      (meaningV s rs >>= fun s' => .ok (setOffV o s', rest)) := by
  induction rs generalizing n s with
  | nil => exact ⟨s.offset, rfl⟩
  | cons r rs ih =>
    obtain ⟨p, vals⟩ := r
    have hlen : base + n + (rs.length + 1) ≤ W := hW
    have hs : split (cs!"PVRTX" ++ spaced (showNat (base + n) :: (p.toks ++ vals.map Num.fmt))) =
        cs!"PVRTX" :: showNat (base + n) :: (p.toks ++ vals.map Num.fmt) := by
      apply split_kw_spaced (by decide)
      intro t ht
      rcases List.mem_cons.1 ht with rfl | ht
      · exact isTok_showNat _
      rcases List.mem_append.1 ht with ht | ht
      · exact isTok_toks p t ht
      · exact isTok_fmt_map vals t ht
    have hd : (cs!"PVRTX" :: showNat (base + n) :: (p.toks ++ vals.map Num.fmt)).drop 5 = vals.map Num.fmt := by
      simp [Pt.toks]
    rw [renderV, List.cons_append, readVSetLoop, hs]
    simp only
    rw [if_neg (by decide), vsLine, if_neg (by decide)]
    unfold vsVrtx
    rw [pointOf_toks, hd]
    obtain ⟨off, hoff⟩ : ∃ off, (if s.points.isEmpty = true then do
        readIndex (← Res.index (cs!"PVRTX" :: showNat (base + n) :: (p.toks ++ vals.map Num.fmt)) 1)
        else pure s.offset : Res Nat) = .ok off := by
      by_cases he : s.points.isEmpty = true
      · exact ⟨base + n, by simp [he, readIndex_showNat (show base + n < W by omega)]⟩
      · exact ⟨s.offset, by simp [he]⟩
    rw [hoff]
    simp only [Res.ok_bind, meaningV, Res.foldM'_cons]
    cases hp : readProperties s.props.esizes s.attrs (vals.map Num.fmt) with
    | ok attrs =>
      simp only [Res.ok_bind, Res.pure_eq]
      obtain ⟨o, ho⟩ := ih (n + 1) { s with offset := off, points := s.points ++ [pointOf s.crs.zPos p], attrs := attrs } (by omega)
      refine ⟨o, ?_⟩
      rw [ho]
      have key : ∀ (rs : List (Pt D × List D)) (s : VSet D) (a : Nat), (meaningV (setOffV a s) rs >>= fun s' => .ok (setOffV o s', rest)) =
          (meaningV s rs >>= fun s' => (.ok (setOffV o s', rest) : Res (VSet D × File))) := by
        intro rs
        induction rs with
        | nil => intro s a; rfl
        | cons r rs ih =>
          intro s a
          simp only [meaningV, Res.foldM'_cons] at ih ⊢
          have e1 : (setOffV a s).props = s.props := rfl
          have e2 : (setOffV a s).attrs = s.attrs := rfl
          rw [e1, e2]
          cases readProperties s.props.esizes s.attrs (r.2.map Num.fmt) with
          | ok attrs =>
            simp only [Res.ok_bind, Res.pure_eq]
            exact ih { s with points := s.points ++ [pointOf s.crs.zPos r.1], attrs := attrs } a
          | throw => rfl
          | ub => rfl
          | diverge => rfl
      exact key rs { s with points := s.points ++ [pointOf s.crs.zPos p], attrs := attrs } off
    | throw => exact ⟨0, rfl⟩
    | ub => exact ⟨0, rfl⟩
    | diverge => exact ⟨0, rfl⟩

theorem load_fileVS [LawfulNum D] {z : Bool} {base : Nat} {name : Option Str} {names : List Str}
    (hname : ∀ n, name = some n → GoodObjectName n) (hnames : GoodNames names) (r : Pt D × List D) (rs : List (Pt D × List D))
    (hW : base + (r :: rs).length ≤ W) :
    loadVS (fileVS z base name names (r :: rs)) =
      (meaningV (startV z name names) (r :: rs) >>= fun s => buildPointSet {} s) := by
  have e : fileVS z base name names (r :: rs) = cs!"GOCAD VSet 1" :: (writeHeader name ++ (writeCrs { zPos := z } ++
      (writeProps D names ++ (renderV base 0 (r :: rs) ++ cs!"END" :: [])))) := by
    simp [fileVS]
  have hcrs : ∀ rest : File, readCrs (writeCrs { zPos := z } ++ rest) = .ok ({ zPos := z }, rest) := fun rest =>
    readCrs_writeCrs (goodCrs_z z) rest
  obtain ⟨o, ho⟩ := read_renderV (base := base) (r :: rs) 0 (startV z name names) (by simpa using hW) []
  have hread : readVSet (fileVS z base name names (r :: rs)) =
      (meaningV (startV z name names) (r :: rs) >>= fun s => .ok (some (setOffV o s, []))) := by
    rw [e]
    unfold readVSet
    rw [gotoKeyword?, if_pos (by rfl)]
    simp only
    rw [readHeader_good hname, Res.ok_bind]
    simp only
    rw [hcrs, Res.ok_bind]
    simp only
    rw [readPropHeader_writeProps hnames, Res.ok_bind]
    simp only
    unfold readVSetVertices
    rw [gotoKeywords_skip (fun l hl => classLines_vrtx hl)]
    obtain ⟨p, vals⟩ := r
    rw [renderV, List.cons_append] at ho ⊢
    have hg : ∀ rest : File, gotoKeywords [cs!"VRTX", cs!"PVRTX"]
        ((cs!"PVRTX" ++ spaced (showNat (base + 0) :: (p.toks ++ vals.map Num.fmt))) :: rest) =
        .ok (cs!"PVRTX" ++ spaced (showNat (base + 0) :: (p.toks ++ vals.map Num.fmt)), rest) := fun rest => rfl
    rw [hg, Res.ok_bind]
    simp only [Res.pure_eq]
    have hst : (⟨1, name, { zPos := z }, readBackProps names, [],
        (readBackProps names : PropHeader D).names.map fun _ => []⟩ : VSet D) = startV z name names := rfl
    rw [hst, ho, Res.bind_assoc']
    rfl
  obtain ⟨k, hk⟩ : ∃ k, (fileVS z base name names (r :: rs)).length = k + 1 := ⟨_, by rw [e]; rfl⟩
  unfold loadVS
  rw [hk, loadVSLoop, hread]
  cases meaningV (startV z name names) (r :: rs) with
  | ok s =>
    simp only [Res.ok_bind]
    have hb : buildPointSet ({} : Loaded Empty D) (setOffV o s) = buildPointSet {} s := rfl
    rw [hb]
    cases buildPointSet ({} : Loaded Empty D) s <;> rfl
  | throw => rfl
  | ub => rfl
  | diverge => rfl

/-- The vertices with the third coordinate negated. -/
def negZV (r : Pt D × List D) : Pt D × List D := ({ r.1 with z := Num.neg r.1.z }, r.2)

theorem meaningV_depth (hneg : ∀ d : D, Num.round (Num.neg d) = Num.neg (Num.round d)) (rs : List (Pt D × List D)) (s : VSet D) :
    meaningV { s with crs := { s.crs with zPos := false } } rs =
      (meaningV { s with crs := { s.crs with zPos := true } } (rs.map negZV) >>= fun t =>
        .ok { t with crs := { s.crs with zPos := false } }) := by
  induction rs generalizing s with
  | nil => rfl
  | cons r rs ih =>
    simp only [meaningV, List.map_cons, Res.foldM'_cons, negZV] at ih ⊢
    cases readProperties s.props.esizes s.attrs (r.2.map Num.fmt) with
    | ok attrs =>
      simp only [Res.ok_bind, Res.pure_eq]
      have := ih { s with points := s.points ++ [pointOf false r.1], attrs := attrs }
      have hp : pointOf true ({ r.1 with z := Num.neg r.1.z } : Pt D) = pointOf false r.1 := by simp [pointOf, hneg]
      rw [hp]
      exact this
    | throw => rfl
    | ub => rfl
    | diverge => rfl

/-- **C09 for VSet.** -/
theorem depth_vs [LawfulNum D] (hneg : ∀ d : D, Num.round (Num.neg d) = Num.neg (Num.round d)) {base : Nat} {name : Option Str}
    {names : List Str} (hname : ∀ n, name = some n → GoodObjectName n) (hnames : GoodNames names) (r : Pt D × List D)
    (rs : List (Pt D × List D)) (hW : base + (r :: rs).length ≤ W) :
    (loadVS (fileVS false base name names (r :: rs)) : Res (Loaded Empty D)) = loadVS (fileVS true base name names ((r :: rs).map negZV)) := by
  rw [load_fileVS hname hnames r rs hW, List.map_cons, load_fileVS hname hnames _ _ (by simpa using hW)]
  have h := meaningV_depth hneg (r :: rs) (startV true name names)
  have e1 : ({ (startV true name names : VSet D) with crs := { (startV true name names : VSet D).crs with zPos := false } } : VSet D) =
    startV false name names := rfl
  have e2 : ({ (startV true name names : VSet D) with crs := { (startV true name names : VSet D).crs with zPos := true } } : VSet D) =
    startV true name names := rfl
  rw [e1, e2] at h
  rw [h, Res.bind_assoc']
  simp only [List.map_cons, Res.ok_bind]
  congr 1

end Verif.Props.GocadBody
