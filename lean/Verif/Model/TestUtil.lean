import Mathlib.Data.Finset.Insert
import Verif.Model.Util
/-
Model of `/repo/region/tests/util.py`, the functions with which the tests of the library look at results.
A `set` of areas is a `Finset`.  `convert_from_geodataframe` (71-93) only calls other libraries.
-/
namespace Region

variable {n : Nat}

/-- The loop of `region_list_from_array` (tests/util.py 53-58): the areas left, the dict `region_idx`,
`current_region_idx` and `region_list`. -/
def regionListLoop (labels : Labels n) : List (Fin n) → (Int → Option Nat) → Nat →
    List (Finset (Fin n)) → Res (List (Finset (Fin n)))
  | [], _, _, regions => .ok regions
  | area :: areas, idx, cur, regions =>
    let seen := idx (labels area)
    let idx' := if seen = none then fun r => if r = labels area then some cur else idx r else idx
    let cur' := if seen = none then cur + 1 else cur
    let regions' := if seen = none then regions ++ [∅] else regions
    match idx' (labels area) with
    | none => .raise .keyError
    | some j =>
      if j < regions'.length then
        regionListLoop labels areas idx' cur' (regions'.modify j fun s => insert area s)
      else .raise .indexError

/-- `region_list_from_array` (tests/util.py 25-59). -/
def regionListFromArray (labels : Labels n) : Res (List (Finset (Fin n))) :=
  regionListLoop labels (List.finRange n) (fun _ => none) 0 []

/-- `compare_region_lists` (tests/util.py 4-22). -/
def compareRegionLists (actual desired : List (Finset (Fin n))) : Res Unit :=
  if actual.length = desired.length then
    if actual.all fun region => desired.contains region then .ok () else .raise .assertionError
  else .raise .assertionError

end Region
