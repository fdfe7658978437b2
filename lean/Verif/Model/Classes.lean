import Verif.Basic
/-
Model of how the methods of the classes in `/repo/region` are found: the class bodies of
`p_regions/azp.py`, `p_regions/exact.py`, `max_p_regions/exact.py`, `max_p_regions/heuristics.py` and
`p_regions/azp_util.py`, the aliases made by `copy_func`, and attribute access on strategy objects.

A function is represented by the place of its `def` statement; names starting and ending with two
underscores are left out, except for `__getattr__`, which is modelled by `Strategy.getattr`.
-/
namespace Region.Classes

/-- A function object: its code, as the file and the line of the `def` statement, and its docstring. -/
structure Fn where
  code : String × Nat
  doc : String
  deriving DecidableEq

/-- The function objects there are; a reference is a position in the list. -/
abbrev Heap := List Fn

/-- `copy_func` (util.py 709-733): `types.FunctionType` makes a new function object with the code, the
globals, the name, the defaults and the closure of the old one; `functools.update_wrapper` gives it the
docstring and the `__dict__` of the old one.  (Of these the code and the docstring are modelled.)  The result is
`none` if there is no function at `r`. -/
def copyFunc (h : Heap) (r : Nat) : Option (Heap × Nat) :=
  h[r]?.map fun f => (h ++ [⟨f.code, f.doc⟩], h.length)

/-- `f.__doc__ = doc`. -/
def setDoc (h : Heap) (r : Nat) (doc : String) : Heap := h.modify r fun f => { f with doc := doc }

/-- A class: its own names, and its base classes in the order of the method resolution. -/
structure Class where
  own : List (String × Fn)
  bases : List (List (String × Fn))

/-- Looking up a name in the class and its bases. -/
def Class.lookup (c : Class) (name : String) : Option Fn :=
  (c.own :: c.bases).findSome? fun names => names.lookup name

/-- A subclass. -/
def Class.extend (c : Class) (own : List (String × Fn)) : Class := ⟨own, c.own :: c.bases⟩

/-- The first line of the docstrings of the aliases. -/
def aliasDoc : String := "Alias for :meth:`fit_from_scipy_sparse_matrix`.\n\n"

/-- The names bound by a class body which consists of the `def` statements `defs` and, after the first ones,
the lines
```
fit = copy_func(fit_from_scipy_sparse_matrix)
fit.__doc__ = "Alias for :meth:`fit_from_scipy_sparse_matrix`.\n\n" + fit_from_scipy_sparse_matrix.__doc__
```
(azp.py 112-114, p_regions/exact.py 113-115, max_p_regions/exact.py 167-169, heuristics.py 125-127): the
`def` statements make the function objects 0, 1, 2, …, and the names are looked up at the end. -/
def withAlias (defs : List (String × Fn)) : List (String × Fn) :=
  let names := defs.map Prod.fst
  let h := defs.map Prod.snd
  let r := names.idxOf "fit_from_scipy_sparse_matrix"
  match copyFunc h r with
  | none => defs
  | some (h, g) =>
    let h := setDoc h g (aliasDoc ++ (h[r]?.map Fn.doc).getD "")
    (names ++ ["fit"]).zip h

/-- A `def` statement; instead of the text of the docstring the place is given. -/
def fn (file : String) (line : Nat) : Fn := ⟨(file, line), s!"docstring in {file} below line {line}"⟩

/-- The `def` statements of `AZP` (azp.py 21-394). -/
def azpDefs : List (String × Fn) :=
  [("fit_from_scipy_sparse_matrix", fn "azp.py" 58), ("fit_from_w", fn "azp.py" 116),
    ("fit_from_networkx", fn "azp.py" 150), ("fit_from_geodataframe", fn "azp.py" 200),
    ("fit_from_dict", fn "azp.py" 240), ("_azp_connected_component", fn "azp.py" 284)]

/-- `AZP` (azp.py 21-394); the alias is made in lines 112-114. -/
def AZP : Class :=
  ⟨withAlias azpDefs, []⟩

/-- `AZPSimulatedAnnealing` (azp.py 397-705), which is not a subclass of `AZP`. -/
def AZPSimulatedAnnealing : Class :=
  ⟨[("fit_from_geodataframe", fn "azp.py" 460), ("fit_from_dict", fn "azp.py" 503),
    ("fit_from_networkx", fn "azp.py" 544), ("fit_from_scipy_sparse_matrix", fn "azp.py" 585),
    ("fit_from_w", fn "azp.py" 664), ("sa_moves_alert", fn "azp.py" 701),
    ("move_made_alert", fn "azp.py" 704)], []⟩

/-- `AZPTabu` (azp.py 708-729). -/
def AZPTabu : Class :=
  AZP.extend [("_make_move", fn "azp.py" 713), ("reset_tabu", fn "azp.py" 727)]

/-- `AZPBasicTabu` (azp.py 732-861). -/
def AZPBasicTabu : Class := AZPTabu.extend [("_azp_connected_component", fn "azp.py" 765)]

/-- `AZPReactiveTabu` (azp.py 864-1046). -/
def AZPReactiveTabu : Class := AZPTabu.extend [("_azp_connected_component", fn "azp.py" 907)]

/-- `PRegionsExact` (p_regions/exact.py 16-295). -/
def PRegionsExact : Class :=
  ⟨withAlias [("fit_from_scipy_sparse_matrix", fn "p_regions/exact.py" 45),
    ("fit_from_dict", fn "p_regions/exact.py" 117), ("fit_from_geodataframe", fn "p_regions/exact.py" 167),
    ("fit_from_networkx", fn "p_regions/exact.py" 211), ("fit_from_w", fn "p_regions/exact.py" 256),
    ("_check_method", fn "p_regions/exact.py" 291)], []⟩

/-- `MaxPRegionsExact` (max_p_regions/exact.py 17-381). -/
def MaxPRegionsExact : Class :=
  ⟨withAlias [("fit_from_scipy_sparse_matrix", fn "max_p_regions/exact.py" 33),
    ("fit_from_dict", fn "max_p_regions/exact.py" 171),
    ("fit_from_geodataframe", fn "max_p_regions/exact.py" 233),
    ("fit_from_networkx", fn "max_p_regions/exact.py" 283), ("fit_from_w", fn "max_p_regions/exact.py" 344)], []⟩

/-- `MaxPRegionsHeu` (max_p_regions/heuristics.py 16-520). -/
def MaxPRegionsHeu : Class :=
  ⟨withAlias [("fit_from_scipy_sparse_matrix", fn "heuristics.py" 39), ("fit_from_dict", fn "heuristics.py" 129),
    ("fit_from_geodataframe", fn "heuristics.py" 193), ("fit_from_networkx", fn "heuristics.py" 243),
    ("fit_from_w", fn "heuristics.py" 304), ("grow_regions", fn "heuristics.py" 345),
    ("find_best_area", fn "heuristics.py" 412), ("assign_enclaves", fn "heuristics.py" 442),
    ("find_best_region_idx", fn "heuristics.py" 486)], []⟩

/-! ### Attributes of strategy objects -/

/-- `AllowMoveStrategy` (azp_util.py 9-58). -/
def AllowMoveStrategy : Class := ⟨[("start_new_component", fn "azp_util.py" 10)], []⟩

/-- `AllowMoveAZP` (azp_util.py 61-70). -/
def AllowMoveAZP : Class := AllowMoveStrategy.extend []

/-- `AllowMoveAZPSimulatedAnnealing` (azp_util.py 73-143). -/
def AllowMoveAZPSimulatedAnnealing : Class := AllowMoveStrategy.extend
  [("register_sa_moves_term", fn "azp_util.py" 106), ("register_move_made", fn "azp_util.py" 119),
    ("notify_min_sa_moves", fn "azp_util.py" 131), ("notify_move_made", fn "azp_util.py" 135),
    ("update_temperature", fn "azp_util.py" 139), ("reset", fn "azp_util.py" 142)]

/-- `AllowMoveAZPMaxPRegions` (azp_util.py 146-211). -/
def AllowMoveAZPMaxPRegions : Class :=
  AllowMoveStrategy.extend [("start_new_component", fn "azp_util.py" 176)]

/-- What an attribute of an object can be: a method bound to the object at some depth below the one asked
(0 is the object itself), or a value kept by the object at this depth. -/
inductive Found (α : Type)
  | method (depth : Nat) (f : Fn)
  | value (depth : Nat) (v : α)
  deriving DecidableEq

/-- A strategy object with the values of its attributes.  A decorator
(`AllowMoveAZPMaxPRegions`) keeps the decorated object in the attribute `_decorated_strategy`, which is
missing as long as `__init__` has not run. -/
inductive Strategy (α : Type)
  | plain (cls : Class) (attrs : List (String × α))
  | decorator (attrs : List (String × α)) (inner : Strategy α)
  | empty (attrs : List (String × α))

/-- The object found one level deeper. -/
def Found.down {α : Type} : Found α → Found α
  | .method k f => .method (k + 1) f
  | .value k v => .value (k + 1) v

/-- The attribute of the object itself: Python looks at the values of the object first (no function of a
class is a data descriptor), then at its class. -/
def ownAttr {α : Type} (cls : Class) (attrs : List (String × α)) (name : String) : Option (Found α) :=
  match attrs.lookup name with
  | some v => some (.value 0 v)
  | none => (cls.lookup name).map (.method 0)

/-- `getattr(obj, name)`.  Where nothing is found, `AllowMoveAZPMaxPRegions.__getattr__`
(azp_util.py 206-211) looks at `self._decorated_strategy`; this is an attribute access as well, and so it
calls `__getattr__` again if there is no such attribute.  `depth` is the number of nested calls Python
still allows; `RecursionError` is a `RuntimeError`.  (The decorated object itself is not among the
attributes modelled.) -/
def Strategy.getattr {α : Type} : Nat → Strategy α → String → Res (Found α)
  | 0, _, _ => .raise .runtimeError
  | _ + 1, .plain cls attrs, name =>
    match ownAttr cls attrs name with
    | some x => .ok x
    | none => .raise .attributeError
  | depth + 1, .decorator attrs inner, name =>
    match ownAttr AllowMoveAZPMaxPRegions attrs name with
    | some x => .ok x
    | none => do
      let x ← Strategy.getattr depth inner name
      .ok x.down
  | depth + 1, .empty attrs, name =>
    match ownAttr AllowMoveAZPMaxPRegions attrs name with
    | some x => .ok x
    | none => Strategy.getattr depth (.empty attrs) "_decorated_strategy"

end Region.Classes
