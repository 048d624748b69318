import Verif.Base.Outcome

/-!
# Sides of surfaces

Model of `/repo/src/geode/geosciences_io/model/internal/gocad_common.cpp`.  The identifiers of the surfaces and blocks are natural numbers
(`uuid` is only compared).  The geometry is an input: for each line of the model, the surfaces that run along its first edge and
whether they do it in the direction of the line; for each surface, its signed volume seen from the centre of another one.  Volumes are
exact numbers.
-/

namespace Verif.Sides

open Verif

/-- `map.emplace( key, value )`: an existing key keeps its value. -/
def emplace {K V : Type} [DecidableEq K] (m : List (K × V)) (k : K) (v : V) : List (K × V) :=
  if m.any (fun e => e.1 = k) then m else m ++ [(k, v)]

/-- `map.find( key )`. -/
def find {K V : Type} [DecidableEq K] : List (K × V) → K → Option V
  | [], _ => none
  | (k', v) :: m, k => if k' = k then some v else find m k

/-- `PairedSigns`, `gocad_common.cpp` lines 45-46. -/
abbrev PairedSigns := List ((Nat × Nat) × Bool)

/-- `surface_direct_edges`, `gocad_common.cpp` lines 61-98: `found` has the surfaces with a border edge along the first edge of the line,
with its direction, in the order they are found. -/
def directEdges (found : List (Nat × Bool)) : List (Nat × Bool) := found.foldl (fun m e => emplace m e.1 e.2) []

/-- The loops of lines 99-114 for one line. -/
def pairLine (m : PairedSigns) (found : List (Nat × Bool)) : PairedSigns :=
  let edges := directEdges found
  if edges.length < 2 then m
  else edges.foldl (fun m s0 => edges.foldl (fun m s1 => if s0.1 < s1.1 then emplace m (s0.1, s1.1) (s0.2 != s1.2) else m) m) m

/-- `determine_paired_signs`, `gocad_common.cpp` lines 48-117. -/
def pairedSigns (lines : List (List (Nat × Bool))) : PairedSigns := lines.foldl pairLine []

/-- The look-up of lines 144-152. -/
def pairOf (m : PairedSigns) (a b : Nat) : Option Bool := find m (min a b, max a b)

/-- State of `determine_relative_signs`: the sign of each surface once it is determined (`signs` and `determined`), and the queue. -/
abbrev SignState := List (Option Bool) × List Nat

/-- Body of the inner loop, `gocad_common.cpp` lines 138-156, for the surface number `s`, when the surface number `d` is processed and has
the sign `v`. -/
def signStep (pair : Nat → Nat → Option Bool) (d : Nat) (v : Bool) (st : SignState) (s : Nat) : SignState :=
  match st.1[s]? with
  | some none =>
    match pair d s with
    | none => st
    | some b => (st.1.set s (some (if b then v else !v)), st.2 ++ [s])
  | _ => st

/-- The outer loop, `gocad_common.cpp` lines 133-157. -/
def signLoop (pair : Nat → Nat → Option Bool) (n : Nat) : Nat → SignState → Res (List (Option Bool))
  | 0, _ => .diverge
  | fuel + 1, (signs, queue) =>
    match queue with
    | [] => .ok signs
    | d :: q =>
      match signs[d]? with
      | some (some v) => signLoop pair n fuel ((List.range n).foldl (signStep pair d v) (signs, q))
      | _ => .ub

/-- `determine_relative_signs`, `gocad_common.cpp` lines 119-163.  Without any surface, `determined[0]` is out of bounds. -/
def relativeSigns (bs : List Nat) (paired : PairedSigns) : Res (List Bool) :=
  match bs with
  | [] => .ub
  | [_] => .ok [true]
  | _ => do
    let n := bs.length
    let pair (i j : Nat) : Option Bool :=
      match bs[i]?, bs[j]? with
      | some a, some b => pairOf paired a b
      | _, _ => none
    let signs ← signLoop pair n (n + 1) ((List.replicate n none).set 0 (some true), [0])
    Res.check (signs.all Option.isSome)
    pure (signs.map fun s => s.getD true)

/-- `are_correct_sides`, `gocad_common.cpp` lines 165-201: `volume c s` is the signed volume of the cones over the triangles of the surface `s`
from the centre of the bounding box of the surface `c`; exchanging two vertices changes its sign. -/
def correctSides (volume : Nat → Nat → Int) (bs : List Nat) (signs : List Bool) : Res Bool := do
  let first ← Res.index bs 0
  let total := ((bs.zip signs).map fun e => if e.2 then volume first e.1 else - volume first e.1).sum
  Res.check (total != 0)
  pure (decide (0 < total))

/-- `determine_universe_sides`, `gocad_common.cpp` lines 203-228. -/
def universeSides (volume : Nat → Nat → Int) (bs : List Nat) (paired : PairedSigns) : Res (List (Nat × Bool)) := do
  let signs ← relativeSigns bs paired
  let correct ← correctSides volume bs signs
  pure ((bs.zip signs).foldl (fun m e => emplace m e.1 (if correct then !e.2 else e.2)) [])

/-- One block of `determine_regions_sides`, `gocad_common.cpp` lines 234-252. -/
def blockSides (volume : Nat → Nat → Int) (sides : List ((Nat × Nat) × Bool)) (block : Nat × List Nat) (paired : PairedSigns) :
    Res (List ((Nat × Nat) × Bool)) := do
  let signs ← relativeSigns block.2 paired
  let correct ← correctSides volume block.2 signs
  pure ((block.2.zip signs).foldl (fun m e => emplace m (block.1, e.1) (if correct then e.2 else !e.2)) sides)

/-- `determine_regions_sides`, `gocad_common.cpp` lines 230-255. -/
def regionsSides (volume : Nat → Nat → Int) (blocks : List (Nat × List Nat)) (paired : PairedSigns) : Res (List ((Nat × Nat) × Bool)) :=
  Res.foldM' (fun sides block => blockSides volume sides block paired) [] blocks

/-- The sides of all surfaces. -/
structure AllSides where
  outside : List (Nat × Bool)
  regions : List ((Nat × Nat) × Bool)
  deriving DecidableEq, Repr

/-- `determine_surface_to_regions_sides`, `gocad_common.cpp` lines 262-276; `boundaries` has the surfaces of each model boundary. -/
def surfaceSides (volume : Nat → Nat → Int) (lines : List (List (Nat × Bool))) (boundaries : List (List Nat))
    (blocks : List (Nat × List Nat)) : Res AllSides := do
  Res.check (decide (0 < boundaries.length))
  let paired := pairedSigns lines
  let u ← universeSides volume boundaries.flatten paired
  let r ← regionsSides volume blocks paired
  pure ⟨u, r⟩

end Verif.Sides
