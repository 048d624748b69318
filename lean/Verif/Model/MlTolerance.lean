import Mathlib.Algebra.Field.Rat
import Mathlib.Algebra.Order.Ring.Rat
import Verif.Model.MlWhole

/-!
# The tolerance of `.ml` files

`in` is `/repo/src/geode/geosciences_io/model/internal/ml_input.cpp`.

The other models of `.ml` files take the comparison of two points as a parameter (`close`).  Here it is what the code computes from the bounding box of the
surfaces, with rational numbers in place of doubles: the roundings of the differences and of the square root of `point_point_distance` are left out.
-/

namespace Verif.MlTolerance

open Verif Verif.GocadMesh Verif.MlWhole

/-- The least and the greatest of numbers, `x` being the first, as `BoundingBox::add_point` keeps them. -/
def bounds (x : ℚ) (xs : List ℚ) : ℚ × ℚ := xs.foldl (fun b y => (min b.1 y, max b.2 y)) (x, x)

/-- A side of the bounding box: `diagonal.value( d )`, `in` line 157. -/
def side (x : ℚ) (xs : List ℚ) : ℚ := (bounds x xs).2 - (bounds x xs).1

/-- `compute_epsilon`, `in` lines 154-162: a ten-millionth of the smallest side of the box of all the points.  The box of no point is left out: nothing is
compared in a model without points. -/
def tolerance : List (Pt ℚ) → Option ℚ
  | [] => none
  | p :: ps => some (1 / 10000000 * min (side p.x (ps.map Pt.x)) (min (side p.y (ps.map Pt.y)) (side p.z (ps.map Pt.z))))

/-- The square of `point_point_distance`. -/
def dist2 (p q : Pt ℚ) : ℚ := (p.x - q.x) * (p.x - q.x) + (p.y - q.y) * (p.y - q.y) + (p.z - q.z) * (p.z - q.z)

/-- `point_point_distance( p, q ) <= epsilon`, `in` lines 461-463 and 481-484: the distance is not negative, so a negative `epsilon` is never reached. -/
def within (e : ℚ) (p q : Pt ℚ) : Bool := decide (0 ≤ e ∧ dist2 p q ≤ e * e)

/-- Whether two points are one for a model made of `points`. -/
def close (points : List (Pt ℚ)) (p q : Pt ℚ) : Bool :=
  match tolerance points with
  | none => false
  | some e => within e p q

/-- `model_.bounding_box()` is called when there are only surfaces, `in` lines 96-118: the points are those of the surfaces. -/
def closeIn (meshes : List (Mesh ℚ)) : Pt ℚ → Pt ℚ → Bool := close (meshes.flatMap fun m => m.2.1)

end Verif.MlTolerance
