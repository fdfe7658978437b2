import Verif.Basic
import Mathlib.Data.Rat.Defs
import Mathlib.Algebra.Order.Ring.Unbundled.Rat
/- Model of `all_elements_equal` (`/repo/region/util.py` 793-794). -/
namespace Region

/-- `numpy.max` and `numpy.min` of a one-dimensional array: the first entry is kept and replaced by the ones
found to be better.  For an empty array NumPy raises a `ValueError`. -/
def npReduce (what : String) (better : ℚ → ℚ → Bool) : List ℚ → Res ℚ
  | [] => .raise (.valueError s!"zero-size array to reduction operation {what} which has no identity")
  | x :: xs => .ok (xs.foldl (fun best y => if better y best then y else best) x)

/-- `all_elements_equal` (util.py 793-794): `np.max(array) == np.min(array)`. -/
def allElementsEqual (array : List ℚ) : Res Bool := do
  let hi ← npReduce "maximum" (fun y best => decide (best < y)) array
  let lo ← npReduce "minimum" (fun y best => decide (y < best)) array
  .ok (decide (hi = lo))

end Region
