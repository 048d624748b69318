import Verif.Lemmas.GocadText

/-! # Lemmas on property headers and property values -/

namespace Verif.Gocad

open Verif

variable {D : Type} [Num D]

theorem takeN_all (ts : List Str) : takeN ts.length ts = .ok ts := by
  induction ts with
  | nil => rfl
  | cons t ts ih => simp [takeN, ih]

theorem takePairs_all {ps : List (Str × Str)} (h : ∀ p ∈ ps, p.1 ≠ cs!"LINEARFUNCTION") :
    takePairs ps.length (pairToks ps) = .ok ps := by
  induction ps with
  | nil => rfl
  | cons p ps ih =>
    obtain ⟨a, b⟩ := p
    have ha := h (a, b) (by simp)
    simp only [List.length_cons, pairToks, takePairs]
    rw [if_neg ha, ih (fun x hx => h x (by simp [hx]))]; rfl

/-- What `write_prop_header` assumes of its data for it to be readable: as many entries of each kind as names, names, classes,
kinds and units made of words separated by single blanks and without quotes, ranges and subclasses made of tokens. -/
structure GoodProps (h : PropHeader D) : Prop where
  nonempty : h.names ≠ []
  names : ∀ s ∈ h.names, GoodName s
  ranges_len : h.ranges.length = h.names.length
  ranges : ∀ p ∈ h.ranges, IsTok p.1 ∧ IsTok p.2 ∧ p.1 ≠ cs!"LINEARFUNCTION"
  noData_len : h.noData.length = h.names.length
  classes_len : h.classes.length = h.names.length
  classes : ∀ s ∈ h.classes, GoodName s
  kinds_len : h.kinds.length = h.names.length
  kinds : ∀ s ∈ h.kinds, GoodName s
  subclasses_len : h.subclasses.length = h.names.length
  subclasses : ∀ p ∈ h.subclasses, IsTok p.1 ∧ IsTok p.2 ∧ p.1 ≠ cs!"LINEARFUNCTION"
  esizes_len : h.esizes.length = h.names.length
  esizes : ∀ e ∈ h.esizes, e < W
  units_len : h.units.length = h.names.length
  units : ∀ s ∈ h.units, GoodName s

theorem isTok_pairToks {ps : List (Str × Str)} (h : ∀ p ∈ ps, IsTok p.1 ∧ IsTok p.2) : ∀ t ∈ pairToks ps, IsTok t := by
  induction ps with
  | nil => simp [pairToks]
  | cons p ps ih =>
    obtain ⟨a, b⟩ := p
    intro t ht
    rcases List.mem_cons.1 ht with rfl | ht
    · exact (h _ (List.mem_cons_self ..)).1
    rcases List.mem_cons.1 ht with rfl | ht
    · exact (h _ (List.mem_cons_self ..)).2
    · exact ih (fun x hx => h x (by simp [hx])) t ht

theorem readOneString_here {kw : Str} (hk : IsTok kw) (hq : kw ≠ ['"']) {xs : List Str} (h : ∀ s ∈ xs, GoodName s)
    {n : Nat} (hn : xs.length = n) (rest : File) :
    readOneString kw n ((kw ++ spaced (xs.map writeQuoted)) :: rest) = .ok (xs, rest) := by
  unfold readOneString
  rw [gotoKeyword_here (by simp), Res.ok_bind]
  simp only [splitQuoted_kw_names hk hq h, Res.ok_bind, List.tail_cons]
  rw [← hn, takeN_all]; rfl

theorem readTwoStrings_here {kw : Str} (hk : IsTok kw) {xs : List (Str × Str)}
    (h : ∀ p ∈ xs, IsTok p.1 ∧ IsTok p.2 ∧ p.1 ≠ cs!"LINEARFUNCTION") {n : Nat} (hn : xs.length = n) (rest : File) :
    readTwoStrings kw n ((kw ++ spaced (pairToks xs)) :: rest) = .ok (xs, rest) := by
  unfold readTwoStrings
  rw [gotoKeyword_here (by simp), Res.ok_bind]
  simp only [split_kw_spaced hk (isTok_pairToks (fun p hp => ⟨(h p hp).1, (h p hp).2.1⟩)), List.tail_cons]
  rw [← hn, takePairs_all (fun p hp => (h p hp).2.2)]; rfl

theorem readOneDouble_here [LawfulNum D] {kw : Str} (hk : IsTok kw) (xs : List D) {n : Nat} (hn : xs.length = n)
    (rest : File) :
    readOneDouble kw n ((kw ++ spaced (xs.map Num.fmt)) :: rest) = .ok (xs.map Num.round, rest) := by
  unfold readOneDouble
  rw [gotoKeyword_here (by simp), Res.ok_bind]
  simp only
  rw [split_kw_spaced hk (by intro x hx; obtain ⟨d, _, rfl⟩ := List.mem_map.1 hx; exact LawfulNum.fmt_tok d)]
  have : n = (xs.map (Num.fmt : D → Str)).length := by simp [hn]
  rw [List.tail_cons, this, takeN_all, Res.ok_bind]
  have hm : Res.mapM' (readDouble : Str → Res D) (xs.map Num.fmt) = .ok (xs.map Num.round) := by
    clear this hn
    induction xs with
    | nil => rfl
    | cons d ds ih => simp [ih]
  rw [hm]; rfl

theorem readOneIndex_here {kw : Str} (hk : IsTok kw) {xs : List Nat} (hx : ∀ x ∈ xs, x < W) {n : Nat}
    (hn : xs.length = n) (rest : File) :
    readOneIndex kw n ((kw ++ spaced (xs.map showNat)) :: rest) = .ok (xs, rest) := by
  unfold readOneIndex
  rw [gotoKeyword_here (by simp), Res.ok_bind]
  simp only
  rw [split_kw_spaced hk (by intro x hx; obtain ⟨d, _, rfl⟩ := List.mem_map.1 hx; exact isTok_showNat d)]
  have : n = (xs.map showNat).length := by simp [hn]
  rw [List.tail_cons, this, takeN_all, Res.ok_bind]
  have hm : Res.mapM' readIndex (xs.map showNat) = .ok xs := by
    clear this hn
    induction xs with
    | nil => rfl
    | cons d ds ih =>
      simp only [List.map_cons, Res.mapM'_cons]
      rw [readIndex_showNat (hx d (by simp)), ih (fun x h => hx x (by simp [h]))]; rfl
  rw [hm]; rfl

/-- The property header is read back (numbers up to formatting), whatever follows it. -/
theorem readPropHeader_write [LawfulNum D] {h : PropHeader D} (g : GoodProps h) (rest : File) :
    readPropHeader [] (writePropHeader h ++ rest) = .ok ({ h with noData := h.noData.map Num.round }, rest) := by
  have e : writePropHeader h ++ rest =
    (cs!"PROPERTIES" ++ spaced (h.names.map writeQuoted)) ::
    (cs!"PROP_LEGAL_RANGES" ++ spaced (pairToks h.ranges)) ::
    (cs!"NO_DATA_VALUES" ++ spaced (h.noData.map Num.fmt)) ::
    (cs!"PROPERTY_CLASSES" ++ spaced (h.classes.map writeQuoted)) ::
    (cs!"PROPERTY_KINDS" ++ spaced (h.kinds.map writeQuoted)) ::
    (cs!"PROPERTY_SUBCLASSES" ++ spaced (pairToks h.subclasses)) ::
    (cs!"ESIZES" ++ spaced (h.esizes.map showNat)) ::
    (cs!"UNITS" ++ spaced (h.units.map writeQuoted)) :: rest := rfl
  rw [e]
  unfold readPropHeader
  rw [List.nil_append, nextKeyword?, if_pos (startsWith_append _ _)]
  simp only [List.nil_append]
  rw [splitQuoted_kw_names (by decide) (by decide) g.names, Res.ok_bind, List.tail_cons,
    if_neg (by intro h0; exact g.nonempty (List.length_eq_zero_iff.1 h0))]
  rw [readTwoStrings_here (by decide) g.ranges g.ranges_len, Res.ok_bind]
  simp only
  rw [readOneDouble_here (by decide) _ g.noData_len, Res.ok_bind]
  simp only
  rw [readOneString_here (by decide) (by decide) g.classes g.classes_len, Res.ok_bind]
  simp only
  rw [readOneString_here (by decide) (by decide) g.kinds g.kinds_len, Res.ok_bind]
  simp only
  rw [readTwoStrings_here (by decide) g.subclasses g.subclasses_len, Res.ok_bind]
  simp only
  rw [readOneIndex_here (by decide) g.esizes g.esizes_len, Res.ok_bind]
  simp only
  rw [readOneString_here (by decide) (by decide) g.units g.units_len, Res.ok_bind]
  rfl

/-- Without a `PROPERTIES` line the header is empty and nothing is consumed. -/
theorem readPropHeader_none {l : Str} (h : startsWith l cs!"PROPERTIES" = false) (rest : File) :
    readPropHeader (D := D) [] (l :: rest) = .ok ({}, l :: rest) := by
  unfold readPropHeader
  rw [List.nil_append, nextKeyword?, if_neg (by simp [h])]

/-! ## Values -/

theorem readItems_one [LawfulNum D] (d : D) (rest : List Str) :
    readItems 1 (Num.fmt d :: rest) = .ok ([Num.round d], rest) := by
  simp [readItems]

/-- One written value per property is read back into the columns. -/
theorem readProperties_ones [LawfulNum D] {α : Type} (as : List α) (f : α → D) (col : α → List D) (rest : List Str) :
    readProperties (as.map fun _ => 1) (as.map col) (as.map (fun a => Num.fmt (f a)) ++ rest) =
      .ok (as.map fun a => col a ++ [Num.round (f a)]) := by
  induction as with
  | nil => rfl
  | cons a as ih =>
    simp only [List.map_cons, List.cons_append, readProperties]
    rw [readItems_one, Res.ok_bind]
    simp only
    rw [ih]; rfl

end Verif.Gocad
