import Verif.Model.Util
/-
Model of the tests of the helper functions, `/repo/region/tests/test_util.py`.  A test that passes returns,
a failing one raises `AssertionError`.  The list and the number of draws (`list(range(1000))` and `n_pops = 5`
in the code) are parameters.
-/
namespace Region

/-- `all_elements_equal` (tests/test_util.py 9-10); `all` of no elements is `True`. -/
def testAllElementsEqual (iterable : List Nat) : Bool :=
  iterable.all fun element => iterable.head? == some element

/-- `not_all_elements_equal` (tests/test_util.py 13-14). -/
def testNotAllElementsEqual (iterable : List Nat) : Bool := !testAllElementsEqual iterable

/-- The loop of `test_random_element_from` (tests/test_util.py 72-75): draws left and `popped`.
`random_element_from` does not touch its argument (util.py 851-853), `lst_copy` stays as it is. -/
def testRandomElementLoop (lst : List Nat) : Nat → List Nat → Rng → Res (List Nat)
  | 0, popped, _ => .ok popped
  | k + 1, popped, r => do
    let lstCopy := lst
    let (x, r) ← randomElementFrom lstCopy r
    if lstCopy.length = lst.length then testRandomElementLoop lst k (popped ++ [x]) r
    else .raise .assertionError

/-- `test_random_element_from` (tests/test_util.py 68-76). -/
def testRandomElementFrom (m nPops : Nat) (r : Rng) : Res Unit := do
  let popped ← testRandomElementLoop (List.range m) nPops [] r
  if testNotAllElementsEqual popped then .ok () else .raise .assertionError

/-- The loop of `test_pop_randomly_from` (tests/test_util.py 83-86). -/
def testPopRandomlyLoop (lst : List Nat) : Nat → List Nat → Rng → Res (List Nat)
  | 0, popped, _ => .ok popped
  | k + 1, popped, r => do
    let (x, lstCopy, r) ← popRandomlyFrom lst r
    if (lstCopy.length : Int) = (lst.length : Int) - 1 then testPopRandomlyLoop lst k (popped ++ [x]) r
    else .raise .assertionError

/-- `test_pop_randomly_from` (tests/test_util.py 79-87). -/
def testPopRandomlyFrom (m nPops : Nat) (r : Rng) : Res Unit := do
  let popped ← testPopRandomlyLoop (List.range m) nPops [] r
  if testNotAllElementsEqual popped then .ok () else .raise .assertionError

end Region
