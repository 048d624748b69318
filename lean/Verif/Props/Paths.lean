import Verif.Model.Paths

/-!
# Names of files

A path is written `d ++ n` where `d` is empty or ends with a separator and `n` has none.
-/

namespace Verif.Props.Paths

open Verif Verif.Res Verif.Paths

/-- The text before the name of a file: empty, or ended by a separator. -/
def IsDirectory (d : Str) : Prop := d = [] ∨ d.getLast? = some '/'

theorem takeWhile_reverse {n d : Str} {c : Char} (hn : c ∉ n) (hd : d = [] ∨ d.getLast? = some c) :
    (d ++ n).reverse.takeWhile (· ≠ c) = n.reverse ∧ (d ++ n).reverse.dropWhile (· ≠ c) = d.reverse := by
  rw [List.reverse_append]
  have h1 : ∀ x ∈ n.reverse, (decide (x ≠ c)) = true := by
    intro x hx
    rw [List.mem_reverse] at hx
    exact decide_eq_true (fun e : x = c => hn (e ▸ hx))
  rw [List.takeWhile_append_of_pos h1, List.dropWhile_append_of_pos h1]
  rcases hd with rfl | hd
  · simp
  · obtain ⟨t, ht⟩ : ∃ t, d.reverse = c :: t := by
      rw [List.getLast?_eq_head?_reverse] at hd
      cases hr : d.reverse with
      | nil => rw [hr] at hd; cases hd
      | cons a t => rw [hr] at hd; cases hd; exact ⟨t, rfl⟩
    rw [ht]
    simp

/-- The two parts of a path. -/
theorem path_parts {d n : Str} (hd : IsDirectory d) (hn : '/' ∉ n) : fileName (d ++ n) = n ∧ directory (d ++ n) = d := by
  obtain ⟨h1, h2⟩ := takeWhile_reverse hn hd
  unfold fileName directory
  rw [h1, h2]
  simp

/-- Every path is its directory followed by its name. -/
theorem path_whole (p : Str) : directory p ++ fileName p = p ∧ IsDirectory (directory p) ∧ '/' ∉ fileName p := by
  refine ⟨?_, ?_, ?_⟩
  · unfold directory fileName
    rw [← List.reverse_append, List.takeWhile_append_dropWhile, List.reverse_reverse]
  · unfold directory IsDirectory
    cases h : p.reverse.dropWhile (· ≠ '/') with
    | nil => left; rfl
    | cons a t =>
      right
      have := List.head_dropWhile_not (l := p.reverse) (fun x => decide (x ≠ '/')) (by rw [h]; simp)
      simp only [h, List.head_cons] at this
      simp only [ne_eq, decide_not, Bool.not_eq_false', decide_eq_true_eq] at this
      rw [List.getLast?_reverse, this]
      rfl
  · unfold fileName
    rw [List.mem_reverse]
    have : ∀ (l : Str), '/' ∉ l.takeWhile (· ≠ '/') := by
      intro l
      induction l with
      | nil => simp
      | cons a l ih =>
        rw [List.takeWhile_cons]
        by_cases h : a = '/'
        · simp [h]
        · rw [if_pos (by simpa using h)]
          rw [List.mem_cons]
          rintro (e | e)
          · exact h e.symm
          · exact ih e
    exact this _

/-- The name of a file `b.e`: `b` is what comes before the extension. -/
theorem stem_extension {d b e : Str} (hd : IsDirectory d) (hb : b ≠ []) (hb' : '/' ∉ b) (he : '/' ∉ e) (he' : '.' ∉ e) (hs : b ++ '.' :: e ≠ cs!"..") :
    stem (d ++ (b ++ '.' :: e)) = b := by
  have hn : '/' ∉ b ++ '.' :: e := by simp [hb', he]
  unfold stem
  rw [(path_parts hd hn).1]
  simp only [if_neg hs]
  have hu : upToDot (b ++ '.' :: e) = b ++ ['.'] := by
    unfold upToDot
    have := (takeWhile_reverse (n := e) (d := b ++ ['.']) (c := '.') he' (Or.inr (by simp))).2
    rw [List.append_assoc] at this
    simp only [List.cons_append, List.nil_append] at this
    rw [this, List.reverse_reverse]
  rw [hu]
  have : ¬ (b ++ ['.']).length ≤ 1 := by
    cases b with
    | nil => exact absurd rfl hb
    | cons a t => simp
  rw [if_neg this]
  simp

/-- A well read from the file `b.e` of any directory has the name `b`. -/
theorem well_named {d b e : Str} (hd : IsDirectory d) (hb : b ≠ []) (hb' : '/' ∉ b) (he : e ≠ []) (he1 : '/' ∉ e) (he2 : '.' ∉ e) :
    wellName (d ++ (b ++ '.' :: e)) = b := by
  refine stem_extension hd hb hb' he1 he2 ?_
  intro h
  cases b with
  | nil => exact hb rfl
  | cons a t =>
    cases t with
    | nil =>
      simp only [List.cons_append, List.nil_append, List.cons.injEq] at h
      exact he h.2.2
    | cons x y =>
      have := congrArg List.length h
      simp at this

/-- The companion of the shape file `b.e` is the file `b.shx` of the same directory. -/
theorem companion_named {d b e : Str} (hd : IsDirectory d) (hb : b ≠ []) (hb' : '/' ∉ b) (he : e ≠ []) (he1 : '/' ∉ e) (he2 : '.' ∉ e) :
    shxFile (d ++ (b ++ '.' :: e)) = d ++ (b ++ cs!".shx") := by
  have hn : '/' ∉ b ++ '.' :: e := by simp [hb', he1]
  have h := well_named hd hb hb' he he1 he2
  unfold wellName at h
  unfold shxFile withoutExtension
  rw [h, (path_parts hd hn).2, List.append_assoc]

/-- The data file named in a file, without separator, is in the directory of that file. -/
theorem data_beside {filename record : Str} (h : '/' ∉ record) :
    directory (dataFile filename record) = directory filename ∧ fileName (dataFile filename record) = record := by
  have := path_parts (path_whole filename).2.1 h
  exact ⟨this.2, this.1⟩

/-- "The data file is the one named" is false for a name given from the root: the directory is put before it. -/
theorem absolute_moved : ¬∀ filename record : Str, record.head? = some '/' → dataFile filename record = record := by
  intro h
  exact absurd (h cs!"a/b.vo" cs!"/c" rfl) (by decide)

/-- It holds for a file of the current directory. -/
theorem absolute_partial {filename : Str} (h : '/' ∉ filename) (record : Str) : dataFile filename record = record := by
  unfold dataFile
  have := (path_parts (d := []) (Or.inl rfl) h).2
  rw [List.nil_append] at this
  rw [this]
  rfl

example : wellName cs!"wells/w.1.dat" = cs!"w.1" ∧ shxFile cs!"a.b/c.shp" = cs!"a.b/c.shx" ∧ dataFile cs!"d/v.vo" cs!"v.dat" = cs!"d/v.dat" := by decide
example : stem cs!".." = cs!".." ∧ stem cs!".x" = cs!".x" ∧ stem cs!"a/" = [] ∧ stem cs!"x" = cs!"x" := by decide

/-! ## Directories of FEM files -/

/-- "Saving a FEM file creates its directories" is false: nothing is created, and saving throws. -/
theorem directories_not_created : ¬∀ (d : Disk) (p : Str), [] ∈ d → ∃ d', saveFem d p = .ok d' ∧ directory p ∈ d' := by
  intro h
  obtain ⟨d', h1, _⟩ := h [[]] cs!"out/model.fem" (by simp)
  exact absurd h1 (by rw [show saveFem [[]] cs!"out/model.fem" = .throw from by decide]; nofun)

/-- Creating the directory of the file would be enough: the file can then be opened, and the directories that exist are kept. -/
theorem created_opens {d : Disk} (hd : [] ∈ d) (p : Str) : opens (createDirectories d (directory p)) p = true ∧ ∀ a ∈ d, a ∈ createDirectories d (directory p) := by
  refine ⟨?_, fun a ha => by unfold createDirectories; exact List.mem_append_left _ ha⟩
  unfold opens createDirectories
  rw [List.contains_iff_mem, List.mem_append]
  by_cases h : directory p ∈ d
  · exact .inl h
  · right
    rw [List.mem_filter]
    refine ⟨?_, by simp [h]⟩
    unfold ancestors
    rw [List.mem_filterMap]
    refine ⟨(directory p).length, by simp, ?_⟩
    rcases (path_whole p).2.1 with h0 | h0
    · rw [h0] at h; exact absurd hd h
    · rw [List.take_length, if_pos h0]

theorem mem_ancestors {p a : Str} : a ∈ ancestors p ↔ a <+: p ∧ a.getLast? = some '/' := by
  unfold ancestors
  rw [List.mem_filterMap]
  constructor
  · rintro ⟨k, _, h⟩
    split at h
    · rename_i h0
      cases h
      exact ⟨List.take_prefix _ _, h0⟩
    · cases h
  · rintro ⟨h, h0⟩
    have e : p.take a.length = a := by rw [← List.prefix_iff_eq_take.1 h]
    exact ⟨a.length, List.mem_range.2 (Nat.lt_succ_of_le h.length_le), by rw [e, if_pos h0]⟩

/-- The directories created are those that lead to the one asked for, each once. -/
theorem created_exactly {d : Disk} (hd : d.Nodup) (p : Str) :
    (createDirectories d p).Nodup ∧ ∀ a, a ∈ createDirectories d p ↔ a ∈ d ∨ a <+: p ∧ a.getLast? = some '/' := by
  unfold createDirectories
  constructor
  · refine List.nodup_append.2 ⟨hd, ?_, ?_⟩
    · refine List.Pairwise.filter _ ?_
      unfold ancestors
      refine List.Pairwise.filterMap (R := fun i j => i < j ∧ j ≤ p.length) _ ?_ ?_
      · intro i j hij a ha b hb hab
        subst hab
        split at ha <;> cases ha
        split at hb
        · have := congrArg List.length (Option.some.inj hb)
          rw [List.length_take, List.length_take] at this
          omega
        · cases hb
      · rw [List.pairwise_iff_getElem]
        intro i j hi hj hij
        rw [List.length_range] at hi hj
        simp only [List.getElem_range]
        omega
    · intro a ha b hb hab
      subst hab
      simp [ha] at hb
  · intro a
    rw [List.mem_append, List.mem_filter, mem_ancestors]
    by_cases h : a ∈ d <;> simp [h]

example : createDirectories [[], cs!"a/"] cs!"a/b/c/" = [[], cs!"a/", cs!"a/b/", cs!"a/b/c/"] := by decide

/-- Saving throws exactly when the directory does not exist, and never creates one.  (Full statement: saving always succeeds.) -/
theorem directories_partial (d : Disk) (p : Str) : saveFem d p = if directory p ∈ d then .ok d else .throw := by
  unfold saveFem opens
  have : directory cs!"filename" = [] := by decide
  rw [this]
  by_cases h : directory p ∈ d
  · simp [h]
  · simp [h]

end Verif.Props.Paths
