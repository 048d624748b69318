import Verif.Model.Fem

/-!
# Values of FEFLOW properties that are not numbers

Model of `write_property` of `/repo/src/geode/geosciences_io/mesh/fem_output.cpp` for doubles that may be NaN: `none` is NaN.  `Verif.Model.Fem` is about
numbers.  NaN differs from every key of a map, so that each one makes a new entry and is never found again.
-/

namespace Verif.FemNan

open Verif Verif.Fem

variable {K : Type} [DecidableEq K]

/-- The turn of the loop of `create_attribute_distribution`, `fem_output.cpp` lines 258-266: `contains( NaN )` is false. -/
def pushN (m : List (Option K × List Nat)) (k : Option K) (i : Nat) : List (Option K × List Nat) :=
  match k with
  | none => m ++ [(none, [i])]
  | some _ => push m k i

/-- `attribute_distribution[value]`, line 246: a new empty entry for NaN. -/
def getIdsN (m : List (Option K × List Nat)) (k : Option K) : List Nat :=
  match k with
  | none => []
  | some _ => getIds m k

/-- `create_attribute_distribution`, `fem_output.cpp` lines 250-268. -/
def distributionN (nbPolyhedra : Nat) (values : List (Option K)) : Res (List (Option K × List Nat)) :=
  Res.foldM' (fun m elem => do
    let value ← Res.index values elem
    pure (pushN m value (elem + 1))) [] (List.range nbPolyhedra)

/-- `operator<`, negated and with its arguments exchanged: comparisons with NaN are false. -/
def leN (le : K → K → Bool) : Option K → Option K → Bool
  | some a, some b => le a b
  | _, _ => true

/-- Whether `operator<` is no strict weak order on the keys: NaN is equivalent to two numbers of which one is smaller. -/
def unsortable (ks : List (Option K)) : Bool := ks.any Option.isNone && decide (2 ≤ (ks.filter Option.isSome).length)

/-- `absl::c_sort( values )`, line 242: undefined behaviour without a strict weak order. -/
def sortN (le : K → K → Bool) (ks : List (Option K)) : Res (List (Option K)) := if unsortable ks then .ub else .ok (sortKeys (leN le) ks)

/-- `write_property`, `fem_output.cpp` lines 230-248. -/
def writePropertyN (toStr : Option K → Str) (le : K → K → Bool) (nbPolyhedra : Nat) (name : Str) (values : List (Option K)) : Res File := do
  let m ← distributionN nbPolyhedra values
  let ks ← sortN le (m.map Prod.fst)
  pure (name :: ks.flatMap fun k => writeChunks (getIdsN m k) (toStr k) CHUNK_SIZE)

end Verif.FemNan
