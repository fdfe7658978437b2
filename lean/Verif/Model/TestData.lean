import Mathlib.Data.Fin.VecNotation
import Mathlib.Algebra.Order.Ring.Rat
import Verif.Model.Util
/-
The data of the tests of the library: `/repo/region/p_regions/tests/data.py` and
`/repo/region/max_p_regions/tests/data.py`.
-/
namespace Region

/-- `weights.Rook.from_dataframe(gdf)` (tests/util.py 79) for unit squares listed row by row, `width` in a
row (p_regions/tests/data.py 18-24, max_p_regions/tests/data.py 49-54): areas next to each other in a row
or a column.  Simplification: the geometry is replaced by what it amounts to. -/
def rookGrid (width n : Nat) : Adj n := fun i j =>
  decide ((i.val / width = j.val / width ∧ (i.val + 1 = j.val ∨ j.val + 1 = i.val)) ∨
    (i.val + width = j.val ∨ j.val + width = i.val))

/-- `adj` of p_regions/tests/data.py 18-34. -/
def duqueAdj : Adj 9 := rookGrid 3 9

/-- `attr` of p_regions/tests/data.py 13-15 in tenths. -/
def duqueTenths : List Nat := [7267, 6236, 4873, 2004, 2450, 4810, 1709, 2259, 2269]

/-- `attr` of p_regions/tests/data.py 13-15. -/
def duqueAttr (i : Fin 9) : ℚ := (duqueTenths.getD i.val 0 : ℚ) / 10

/-- The labels from which `optimal_clustering` is made (p_regions/tests/data.py 27-29). -/
def duqueLabels : Labels 9 := ![0, 0, 0, 1, 1, 0, 1, 1, 1]

/-- `adj` of max_p_regions/tests/data.py 49-60. -/
def squareAdj : Adj 4 := rookGrid 2 4

/-- `attr` of max_p_regions/tests/data.py 37-38. -/
def squareAttr : Fin 4 → ℚ := ![0, 0, 1, 1]

/-- `spatially_extensive_attr` of max_p_regions/tests/data.py 42. -/
def squareSpat : Fin 4 → ℚ := fun _ => 1

/-- The labels from which `optimal_clustering` is made (max_p_regions/tests/data.py 44-45). -/
def squareLabels : Labels 4 := ![0, 0, 1, 1]

end Region
