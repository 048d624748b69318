import Verif.Props.FemValues
import Verif.Model.GeosFiles
import Verif.Props.Geos
import Verif.Props.Paths

/-!
# Files of the exports for GEOS
-/

namespace Verif.Props.GeosFiles

open Verif Verif.Geos Verif.Paths

variable {D : Type}

/-! ## Names of the files -/

theorem upToDot_sub (n : Str) : ∀ c ∈ upToDot n, c ∈ n := by
  intro c hc
  unfold upToDot at hc
  rw [List.mem_reverse] at hc
  have := (List.dropWhile_sublist _).subset hc
  simpa using this

/-- The part of a name kept has no separator. -/
theorem stem_plain (p : Str) : '/' ∉ stem p := by
  have h := (Props.Paths.path_whole p).2.2
  unfold stem
  simp only
  split
  · exact h
  · split
    · exact h
    · intro hc
      exact h (upToDot_sub _ _ (List.dropLast_subset _ hc))

theorem last_of_append {a b : Str} (h : b ≠ []) : (a ++ b).getLast? = b.getLast? := by
  rw [List.getLast?_append]
  cases b with
  | nil => exact absurd rfl h
  | cons x y => rw [List.getLast?_eq_some_getLast (by simp)]; rfl

/-- No file written replaces another one. -/
theorem files_distinct (d : Str) (n : Nat) : (filesWritten d n).Nodup := by
  have e1 : (inDirectory d (vtuName d)).getLast? = some 'u' := by
    unfold inDirectory vtuName
    rw [← List.append_assoc, last_of_append (by simp)]; rfl
  have e2 : ∀ i, (wellFile d i).getLast? = some 'p' := by
    intro i
    unfold wellFile inDirectory
    rw [← List.append_assoc, last_of_append (by simp)]; rfl
  have e3 : (xmlFile d).getLast? = some 'l' := by
    unfold xmlFile inDirectory
    rw [← List.append_assoc, last_of_append (by simp)]; rfl
  unfold filesWritten
  rw [List.nodup_append, List.nodup_append]
  refine ⟨⟨by simp, ?_, ?_⟩, by simp, ?_⟩
  · rw [List.Nodup, List.pairwise_map]
    refine List.nodup_range.imp ?_
    intro a b hab h
    apply hab
    unfold wellFile inDirectory at h
    simp only [List.append_assoc, List.append_cancel_left_eq] at h
    rw [List.append_cancel_right_eq] at h
    exact showNat_injective h
  · intro a ha b hb hab
    rw [List.mem_singleton] at ha
    obtain ⟨i, _, rfl⟩ := List.mem_map.1 hb
    subst ha
    rw [hab, e2] at e1
    simp at e1
  · intro a ha b hb hab
    rw [List.mem_singleton] at hb
    subst hb
    rcases List.mem_append.1 ha with ha | ha
    · rw [List.mem_singleton] at ha
      subst ha
      rw [hab, e3] at e1
      simp at e1
    · obtain ⟨i, _, rfl⟩ := List.mem_map.1 ha
      have := e2 i
      rw [hab, e3] at this
      simp at this

/-- All the files are in the directory of the export. -/
theorem files_in_directory (d : Str) (n : Nat) : ∀ f ∈ filesWritten d n, directory f = d ++ cs!"/" := by
  have key : ∀ name : Str, '/' ∉ name → directory (inDirectory d name) = d ++ cs!"/" := by
    intro name h
    exact (Props.Paths.path_parts (Or.inr (by simp)) h).2
  have hp : '/' ∉ prefix_ d := stem_plain d
  intro f hf
  unfold filesWritten at hf
  simp only [List.mem_append, List.mem_singleton, List.mem_map] at hf
  rcases hf with (rfl | ⟨i, _, rfl⟩) | rfl
  · refine key _ ?_
    unfold vtuName
    simp [hp]
  · refine key _ ?_
    have hd : '/' ∉ showNat i := by
      intro h
      have := (showNat_spec i).2.1 _ h
      revert this
      decide
    simp [hp, hd]
  · refine key _ ?_
    simp [hp]

/-- The mesh file named in the document is the one written, seen from the directory of the document; the mesh has the name of the file. -/
theorem mesh_file_named [Num D] (mv : Moved D) (d : Str) (ns : Names) (boxes : List (Pt D × Pt D)) (n : Nat) :
    (document mv d ns boxes).name = cs!"Problem" ∧ ∃ mesh name, (document mv d ns boxes).children.head? = some (.mk cs!"Mesh" [] [mesh]) ∧ mesh.attr cs!"file" = some (cs!"./" ++ name) ∧
      (filesWritten d n).head? = some (inDirectory d name) ∧ mesh.attr cs!"fieldsToImport" = some (fieldsToImport ns) ∧
      mesh.attr cs!"fieldNamesInGEOSX" = some cs!"{ please enter property name in Geos}" ∧
      mesh.name = cs!"VTKMesh" ∧ ∃ title, mesh.attr cs!"name" = some title ∧ name = title ++ cs!".vtu" := by
  exact ⟨rfl, meshNode d ns, vtuName d, rfl, rfl, rfl, rfl, rfl, rfl, prefix_ d, rfl, rfl⟩

/-- The document has one box for each well, in their order, each with the number of the file of the well; nothing for a model without well. -/
theorem boxes_named [Num D] (mv : Moved D) (d : Str) (ns : Names) (boxes : List (Pt D × Pt D)) :
    ((document mv d ns boxes).children.drop 1).flatMap (fun g => g.children.map fun b => (g.name, b.name, b.attr cs!"name")) =
      (List.range boxes.length).map (fun i => (cs!"Geometry", cs!"Box", some (cs!"well_" ++ showNat i))) ∧
    ((filesWritten d boxes.length).drop 1).take boxes.length = (List.range boxes.length).map (wellFile d) := by
  refine ⟨?_, ?_⟩
  · unfold document
    simp only [Node.children, List.singleton_append, List.drop_succ_cons, List.drop_zero]
    by_cases h : boxes = []
    · simp [h]
    · rw [if_neg h]
      simp only [List.flatMap_cons, List.flatMap_nil, List.append_nil, Node.children, Node.name, boxNodes, List.map_map]
      have : List.range boxes.length = boxes.zipIdx.map Prod.snd := by rw [List.zipIdx_map_snd, List.range_eq_range']
      rw [this, List.map_map]
      rfl
  · unfold filesWritten
    rw [List.append_assoc, List.singleton_append, List.drop_succ_cons, List.drop_zero, List.take_left' (by simp)]

example : filesWritten cs!"out/m" 2 = [cs!"out/m/m.vtu", cs!"out/m/m_well0.vtp", cs!"out/m/m_well1.vtp", cs!"out/m/m_simulation.xml"] := by decide

/-! ## The prefix -/

/-- "The files have the name of the directory" is false: a dot in the name, or a separator after it. -/
theorem prefix_cut : (¬∀ d b : Str, '/' ∉ b → prefix_ (d ++ cs!"/" ++ b) = b) ∧ ¬∀ d b : Str, '/' ∉ b → '.' ∉ b → prefix_ (d ++ cs!"/" ++ b ++ cs!"/") = b := by
  refine ⟨fun h => ?_, fun h => ?_⟩
  · exact absurd (h cs!"out" cs!"v1.2" (by decide)) (by decide)
  · exact absurd (h cs!"out" cs!"m" (by decide) (by decide)) (by decide)

/-- It holds for names without dot, written without separator at the end.  (Full statement: all directories.) -/
theorem prefix_partial {d b : Str} (hd : Props.Paths.IsDirectory d) (h1 : '/' ∉ b) (h2 : '.' ∉ b) : prefix_ (d ++ b) = b := by
  unfold prefix_ stem
  rw [(Props.Paths.path_parts hd h1).1]
  simp only
  split
  · rfl
  · have : upToDot b = [] := by
      unfold upToDot
      have := (Props.Paths.takeWhile_reverse (n := b) (d := []) (c := '.') h2 (Or.inl rfl)).2
      rw [List.nil_append] at this
      rw [this]
      rfl
    rw [this]
    simp

/-- The names of the files of the export in such a directory. -/
theorem files_named_partial {d b : Str} (hd : Props.Paths.IsDirectory d) (h1 : '/' ∉ b) (h2 : '.' ∉ b) (n : Nat) :
    filesWritten (d ++ b) n = (d ++ b ++ cs!"/" ++ b ++ cs!".vtu") :: (List.range n).map (fun i => d ++ b ++ cs!"/" ++ b ++ cs!"_well" ++ showNat i ++ cs!".vtp") ++
      [d ++ b ++ cs!"/" ++ b ++ cs!"_simulation.xml"] := by
  unfold filesWritten xmlFile vtuName
  rw [prefix_partial hd h1 h2]
  have e : wellFile (d ++ b) = fun i => d ++ b ++ cs!"/" ++ b ++ cs!"_well" ++ showNat i ++ cs!".vtp" := by
    funext i
    unfold wellFile
    rw [prefix_partial hd h1 h2]
    simp [inDirectory]
  rw [e]
  simp [inDirectory]

/-! ## The boxes in the document -/

/-- The corners read in the attributes of a box. -/
def Reads [Num D] (node : Node) (lo hi : Pt D) : Prop :=
  ∀ k p, (k, p) ∈ [(cs!"xMin", lo), (cs!"xMax", hi)] → ∃ a b c, node.attr k = some (cs!"{" ++ a ++ cs!", " ++ b ++ cs!", " ++ c ++ cs!"}") ∧
    ',' ∉ a ∧ ',' ∉ b ∧ ',' ∉ c ∧ Num.parse a = some p.x ∧ Num.parse b = some p.y ∧ Num.parse c = some p.z

/-- The corners read are those of the box, moved and rounded. -/
theorem box_read [Num D] [LawfulNum D] (hc : ∀ d : D, ',' ∉ Num.fmt d) (mv : Moved D) (i : Nat) (lo hi : Pt D) :
    Reads (boxNode mv i (lo, hi)) (Pt.round ⟨mv.down lo.x, mv.down lo.y, mv.down lo.z⟩) (Pt.round ⟨mv.up hi.x, mv.up hi.y, mv.up hi.z⟩) := by
  intro k p hk
  simp only [List.mem_cons, Prod.mk.injEq, List.not_mem_nil, or_false] at hk
  rcases hk with ⟨rfl, rfl⟩ | ⟨rfl, rfl⟩
  · exact ⟨_, _, _, rfl, hc _, hc _, hc _, LawfulNum.parse_fmt _, LawfulNum.parse_fmt _, LawfulNum.parse_fmt _⟩
  · exact ⟨_, _, _, rfl, hc _, hc _, hc _, LawfulNum.parse_fmt _, LawfulNum.parse_fmt _, LawfulNum.parse_fmt _⟩

/-- The box read contains the perforations of the well that are in the mesh, if the text of its bounds is exact.
(Full statement: without the hypothesis `hround`.) -/
theorem written_box_partial [Num D] [LawfulNum D] [LinearOrder D] (hc : ∀ d : D, ',' ∉ Num.fmt d) {mv : Moved D} (hdown : ∀ x, mv.down x ≤ x) (hup : ∀ x, x ≤ mv.up x)
    {corners : Nat → List (Pt D)} {near : Pt D → List Nat} (hn : Props.Geos.Around corners near) (dist : Pt D → Nat → D) {well : List (Pt D)} {lo hi : Pt D}
    (hb : wellBox corners near dist well = some (lo, hi))
    (hround : ∀ x ∈ [mv.down lo.x, mv.down lo.y, mv.down lo.z, mv.up hi.x, mv.up hi.y, mv.up hi.z], Num.round x = x) (i : Nat) :
    ∃ lo' hi', Reads (boxNode mv i (lo, hi)) lo' hi' ∧ ∀ p ∈ well, near p ≠ [] → Props.Geos.Inside (some (lo', hi')) p := by
  refine ⟨_, _, box_read hc mv i lo hi, ?_⟩
  intro p hp hne
  obtain ⟨lo', hi', e, h1, h2, h3, h4, h5, h6⟩ := Props.Geos.perforations_in_box_partial hn dist well p hp hne
  rw [hb] at e
  cases e
  simp only [List.mem_cons, List.not_mem_nil, or_false, forall_eq_or_imp, forall_eq] at hround
  obtain ⟨r1, r2, r3, r4, r5, r6⟩ := hround
  refine ⟨_, _, rfl, ?_⟩
  simp only [Pt.round, r1, r2, r3, r4, r5, r6]
  exact ⟨le_trans (hdown _) h1, le_trans (hdown _) h2, le_trans (hdown _) h3, le_trans h4 (hup _), le_trans h5 (hup _), le_trans h6 (hup _)⟩

/-- The hypotheses hold for a well with a perforation in a cell. -/
example : ∃ lo' hi' : Pt Int, Reads (boxNode ⟨id, id⟩ 0 ((⟨0, 0, 0⟩ : Pt Int), ⟨2, 2, 2⟩)) lo' hi' ∧ Props.Geos.Inside (some (lo', hi')) ⟨1, 1, 1⟩ := by
  have hn : Props.Geos.Around (fun _ => [(⟨0, 0, 0⟩ : Pt Int), ⟨2, 2, 2⟩]) (fun p => if p = ⟨1, 1, 1⟩ then [0] else []) := by
    intro p i hi
    by_cases h : p = ⟨1, 1, 1⟩
    · subst h
      simp
    · simp [h] at hi
  obtain ⟨lo', hi', h1, h2⟩ := written_box_partial (D := Int) (mv := ⟨id, id⟩) (i := 0) (lo := ⟨0, 0, 0⟩) (hi := ⟨2, 2, 2⟩) Props.FemValues.comma_not_mem_showInt (fun _ => le_refl _) (fun _ => le_refl _)
    hn (fun _ _ => 1) (well := [⟨1, 1, 1⟩]) (by decide) (by intro x _; rfl)
  exact ⟨lo', hi', h1, h2 _ (by simp) (by simp)⟩

/-- Numbers of seven digits, written with six: tenths of millimetres, for coordinates between 100 m and 1 km. -/
structure Six where
  z : Int
  deriving DecidableEq

/-- The nearest multiple of ten. -/
def Six.nearest (a : Six) : Six := ⟨(a.z + 5) / 10 * 10⟩

instance : Num Six where
  parse s := (parseZ s).map Six.mk
  fmt a := showInt a.nearest.z
  round := Six.nearest
  neg a := ⟨-a.z⟩
  castF := id
  zero := ⟨0⟩
  noData := ⟨-99999⟩

/-- The safety offset is one unit. -/
def sixOffset : Moved Six := ⟨fun a => ⟨a.z - 1⟩, fun a => ⟨a.z + 1⟩⟩

/-- Six digits are too few for the offset: a box that contains a point is written as a box that does not. -/
theorem written_box_misses : ∃ p lo hi : Pt Six, (lo.x.z ≤ p.x.z ∧ p.x.z ≤ hi.x.z) ∧
    ∀ lo' hi' : Pt Six, Reads (boxNode sixOffset 0 (lo, hi)) lo' hi' → ¬ lo'.x.z ≤ p.x.z := by
  refine ⟨⟨⟨1000007⟩, ⟨0⟩, ⟨0⟩⟩, ⟨⟨1000007⟩, ⟨0⟩, ⟨0⟩⟩, ⟨⟨1000017⟩, ⟨0⟩, ⟨0⟩⟩, by decide, ?_⟩
  intro lo' hi' h hle
  obtain ⟨a, b, c, e, hca, _, _, ha, _, _⟩ := h cs!"xMin" lo' (by simp)
  have e' : (boxNode sixOffset 0 ((⟨⟨1000007⟩, ⟨0⟩, ⟨0⟩⟩ : Pt Six), ⟨⟨1000017⟩, ⟨0⟩, ⟨0⟩⟩)).attr cs!"xMin" = some cs!"{1000010, 0, 0}" := by decide +kernel
  rw [e', Option.some.injEq] at e
  have e2 := congrArg (List.takeWhile (· ≠ ',')) e
  have e3 : (cs!"{" ++ a ++ cs!", " ++ b ++ cs!", " ++ c ++ cs!"}").takeWhile (· ≠ ',') = cs!"{" ++ a := by
    have : cs!"{" ++ a ++ cs!", " ++ b ++ cs!", " ++ c ++ cs!"}" = (cs!"{" ++ a) ++ (',' :: (cs!" " ++ b ++ cs!", " ++ c ++ cs!"}")) := by simp
    rw [this, List.takeWhile_append_of_pos]
    · simp
    · intro x hx
      rcases List.mem_append.1 hx with hx | hx
      · rw [List.mem_singleton] at hx
        subst hx
        rfl
      · exact decide_eq_true (fun e : x = ',' => hca (e ▸ hx))
  rw [e3] at e2
  have e4 : a = cs!"1000010" := by
    have : cs!"{" ++ cs!"1000010" = cs!"{" ++ a := by rw [← e2]; decide
    exact (List.append_cancel_left this).symm
  rw [e4] at ha
  have : (Num.parse cs!"1000010" : Option Six) = some ⟨1000010⟩ := by decide
  rw [this, Option.some.injEq] at ha
  rw [← ha] at hle
  revert hle
  decide

end Verif.Props.GeosFiles
