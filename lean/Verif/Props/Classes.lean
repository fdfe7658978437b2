import Verif.Model.Classes
import Mathlib.Tactic.ByContra
/-
C108 `fit` is another name for `fit_from_scipy_sparse_matrix`; C109 what the attributes of a decorated
strategy are.
-/
namespace Region.Props
open Region.Classes

/-! ### C108 -/

/-- The classes of estimators. -/
def estimators : List Class :=
  [AZP, AZPSimulatedAnnealing, AZPTabu, AZPBasicTabu, AZPReactiveTabu, PRegionsExact, MaxPRegionsExact,
    MaxPRegionsHeu]

/-- In the class `c`, `fit` runs the code of `fit_from_scipy_sparse_matrix`, and its docstring is the one of
`fit_from_scipy_sparse_matrix` below a line saying that it is an alias. -/
def IsAlias (c : Class) : Prop :=
  ∃ f m, c.lookup "fit" = some f ∧ c.lookup "fit_from_scipy_sparse_matrix" = some m ∧ f.code = m.code ∧
    f.doc = "Alias for :meth:`fit_from_scipy_sparse_matrix`.\n\n" ++ m.doc

/-- C108: `copy_func` makes a function object of its own, with the code and the docstring of the old one;
changing its docstring does not change any other function. -/
theorem c108_copy (h : Heap) (r : Nat) (f : Fn) (hr : h[r]? = some f) (doc : String) :
    ∃ h' g, copyFunc h r = some (h', g) ∧ g ≠ r ∧ h'[g]? = some f ∧ (setDoc h' g doc)[g]? = some ⟨f.code, doc⟩ ∧
      ∀ i, i < h.length → (setDoc h' g doc)[i]? = h[i]? := by
  have hlt : r < h.length := by
    by_contra hc
    rw [List.getElem?_eq_none (by omega)] at hr
    simp at hr
  refine ⟨h ++ [f], h.length, ?_, by omega, by simp, by simp [setDoc], fun i hi => ?_⟩
  · simp [copyFunc, hr]
  · simp only [setDoc, List.getElem?_modify]
    have hne : ¬ h.length = i := by omega
    rw [List.getElem?_append_left hi]
    simp [hne]

example : copyFunc [fn "a.py" 3, fn "a.py" 9] 1 = some ([fn "a.py" 3, fn "a.py" 9, fn "a.py" 9], 2) := by
  decide +kernel

/-- Without the copy the docstring of the function itself changes. -/
theorem c108_copy_matters :
    (setDoc [fn "a.py" 3] 0 (aliasDoc ++ (fn "a.py" 3).doc))[0]? ≠ some (fn "a.py" 3) := by decide +kernel

/-- C108, part: `fit` is an alias of `fit_from_scipy_sparse_matrix` in all classes of estimators but
`AZPSimulatedAnnealing`.  The full property is about all of `estimators`. -/
theorem c108_alias_partial :
    ∀ c ∈ [AZP, AZPTabu, AZPBasicTabu, AZPReactiveTabu, PRegionsExact, MaxPRegionsExact, MaxPRegionsHeu],
      IsAlias c := by
  have h : ∀ c ∈ [AZP, AZPTabu, AZPBasicTabu, AZPReactiveTabu, PRegionsExact, MaxPRegionsExact,
      MaxPRegionsHeu],
      ((c.lookup "fit").bind fun f => (c.lookup "fit_from_scipy_sparse_matrix").map fun m =>
        decide (f.code = m.code ∧ f.doc = "Alias for :meth:`fit_from_scipy_sparse_matrix`.\n\n" ++ m.doc)) =
        some true := by decide +kernel
  intro c hc
  have := h c hc
  rw [Option.bind_eq_some_iff] at this
  obtain ⟨f, hf, this⟩ := this
  rw [Option.map_eq_some_iff] at this
  obtain ⟨m, hm, this⟩ := this
  rw [decide_eq_true_iff] at this
  exact ⟨f, m, hf, hm, this.1, this.2⟩

/-- C108: the docstrings of the original methods are the ones in the source, and the code run is the one of the
class named in the source. -/
theorem c108_original :
    [AZP, AZPTabu, AZPBasicTabu, AZPReactiveTabu, PRegionsExact, MaxPRegionsExact, MaxPRegionsHeu].map
        (fun c => c.lookup "fit_from_scipy_sparse_matrix") =
      [some (fn "azp.py" 58), some (fn "azp.py" 58), some (fn "azp.py" 58), some (fn "azp.py" 58),
        some (fn "p_regions/exact.py" 45), some (fn "max_p_regions/exact.py" 33),
        some (fn "heuristics.py" 39)] := by decide +kernel

/-- C108 fails: `AZPSimulatedAnnealing` has `fit_from_scipy_sparse_matrix` but no `fit`. -/
theorem c108_no_fit :
    AZPSimulatedAnnealing.lookup "fit" = none ∧
      AZPSimulatedAnnealing.lookup "fit_from_scipy_sparse_matrix" = some (fn "azp.py" 585) := by
  decide +kernel

/-- So it is not true that all classes of estimators have the alias. -/
theorem c108_not_all : ¬ ∀ c ∈ estimators, IsAlias c := by
  intro h
  obtain ⟨f, _, hf, _⟩ := h AZPSimulatedAnnealing (by simp [estimators])
  rw [c108_no_fit.1] at hf
  simp at hf

/-- A class derived from `c` by any number of subclass definitions. -/
def derived (c : Class) (bodies : List (List (String × Fn))) : Class := bodies.foldl Class.extend c

/-- The definitions of a derived class, from the last to the first. -/
theorem derived_lookup (c : Class) (bodies : List (List (String × Fn))) (name : String) :
    (derived c bodies).lookup name =
      (bodies.reverse.findSome? fun b => b.lookup name).or (c.lookup name) := by
  induction bodies generalizing c with
  | nil => simp [derived]
  | cons b bs ih =>
    have := ih (c.extend b)
    simp only [derived, List.foldl_cons] at this ⊢
    rw [this, List.reverse_cons, List.findSome?_append]
    cases bs.reverse.findSome? fun b => b.lookup name with
    | some x => simp
    | none =>
      simp only [Option.none_or, List.findSome?_cons, List.findSome?_nil, Class.lookup, Class.extend]
      cases b.lookup name <;> simp

/-- C108: the alias is inherited by all classes derived from one which has it, as long as they define neither
of the two names. -/
theorem c108_inherited (c : Class) (h : IsAlias c) (bodies : List (List (String × Fn)))
    (h1 : ∀ b ∈ bodies, b.lookup "fit" = none)
    (h2 : ∀ b ∈ bodies, b.lookup "fit_from_scipy_sparse_matrix" = none) : IsAlias (derived c bodies) := by
  have e : ∀ name, (∀ b ∈ bodies, b.lookup name = none) → (derived c bodies).lookup name = c.lookup name := by
    intro name hn
    rw [derived_lookup, List.findSome?_eq_none_iff.2 (by simpa using hn)]
    rfl
  obtain ⟨f, m, hf, hm, hr⟩ := h
  exact ⟨f, m, (e _ h1).trans hf, (e _ h2).trans hm, hr⟩

example : IsAlias (derived AZPBasicTabu [[("report", fn "user.py" 1)], [("fit_from_w", fn "user.py" 5)]]) :=
  c108_inherited _ (c108_alias_partial _ (by simp)) _ (by decide +kernel) (by decide +kernel)

/-- C108: the alias is a copy: in a class derived from one which has the alias, `fit` runs the old code even if
`fit_from_scipy_sparse_matrix` is defined anew. -/
theorem c108_stale (c : Class) (h : IsAlias c) (bodies : List (List (String × Fn)))
    (h1 : ∀ b ∈ bodies, b.lookup "fit" = none) :
    ∃ f m, (derived c bodies).lookup "fit" = some f ∧ c.lookup "fit_from_scipy_sparse_matrix" = some m ∧
      f.code = m.code := by
  obtain ⟨f, m, hf, hm, hr, _⟩ := h
  refine ⟨f, m, ?_, hm, hr⟩
  rw [derived_lookup, List.findSome?_eq_none_iff.2 (by simpa using h1)]
  exact hf

/-- So a subclass which overrides `fit_from_scipy_sparse_matrix` loses the alias. -/
theorem c108_overridden :
    ¬ IsAlias (derived AZP [[("fit_from_scipy_sparse_matrix", fn "user.py" 1)]]) := by
  rintro ⟨f, m, hf, hm, hr, -⟩
  have e1 : (derived AZP [[("fit_from_scipy_sparse_matrix", fn "user.py" 1)]]).lookup
      "fit_from_scipy_sparse_matrix" = some (fn "user.py" 1) := by decide +kernel
  have e2 : ((derived AZP [[("fit_from_scipy_sparse_matrix", fn "user.py" 1)]]).lookup "fit").map Fn.code =
      some ("azp.py", 58) := by decide +kernel
  rw [e1] at hm
  rw [hf] at e2
  simp only [Option.some.injEq, Option.map_some] at hm e2
  rw [← hm, e2] at hr
  exact absurd hr (by decide +kernel)

/-! ### C109 -/

/-- A strategy decorated any number of times; the outermost decorator comes first. -/
def decorated {α : Type} (ds : List (List (String × α))) (s : Strategy α) : Strategy α :=
  ds.foldr Strategy.decorator s

/-- An object has an attribute: it keeps a value under this name, or the name is one of the names of its
class. -/
def Has {α : Type} (names : List String) (attrs : List (String × α)) (name : String) : Prop :=
  name ∈ attrs.map Prod.fst ∨ name ∈ names

theorem lookup_none {α : Type} (l : List (String × α)) (name : String) :
    l.lookup name = none ↔ name ∉ l.map Prod.fst := by
  induction l with
  | nil => simp
  | cons x l ih =>
    obtain ⟨k, v⟩ := x
    rw [List.lookup_cons]
    by_cases hk : name = k
    · subst hk; simp
    · simp [hk, ih, beq_eq_false_iff_ne.2 hk]

theorem ownAttr_none {α : Type} (attrs : List (String × α)) (name : String) :
    ownAttr AllowMoveAZPMaxPRegions attrs name = none ↔ ¬ Has ["start_new_component"] attrs name := by
  unfold ownAttr Has
  cases h : attrs.lookup name with
  | some v =>
    have : name ∈ attrs.map Prod.fst := by
      by_contra hc
      rw [(lookup_none attrs name).2 hc] at h
      simp at h
    simp only [reduceCtorEq, false_iff, not_not]
    exact Or.inl this
  | none =>
    have h1 := (lookup_none attrs name).1 h
    simp only [h1, false_or, List.mem_singleton, Option.map_eq_none_iff]
    simp only [Class.lookup, AllowMoveAZPMaxPRegions, Class.extend, AllowMoveStrategy, List.findSome?_cons,
      List.findSome?_nil, List.lookup_cons, List.lookup_nil]
    by_cases hk : name = "start_new_component"
    · simp [hk]
    · simp [hk, beq_eq_false_iff_ne.2 hk]

/-- The object `k` levels deeper. -/
def Found.deeper {α : Type} (k : Nat) : Found α → Found α
  | .method j f => .method (j + k) f
  | .value j v => .value (j + k) v

/-- C109: what none of the decorators has is looked up in the decorated object, whatever the number of
decorators: the answer, value or exception, is the answer of this object. -/
theorem c109_forward {α : Type} (ds : List (List (String × α))) (s : Strategy α) (name : String)
    (h : ∀ d ∈ ds, ¬ Has ["start_new_component"] d name) (depth : Nat) :
    (decorated ds s).getattr (depth + ds.length) name =
      (s.getattr depth name).bind fun x => .ok (Found.deeper ds.length x) := by
  induction ds with
  | nil =>
    simp only [decorated, List.foldr_nil, List.length_nil, Nat.add_zero]
    cases s.getattr depth name with
    | ok x => cases x <;> rfl
    | raise e => rfl
    | timeout => rfl
  | cons d ds ih =>
    have ih := ih fun d hd => h d (List.mem_cons_of_mem _ hd)
    have hd := (ownAttr_none d name).2 (h d List.mem_cons_self)
    simp only [decorated, List.foldr_cons, List.length_cons] at ih ⊢
    rw [← Nat.add_assoc, Strategy.getattr, hd]
    simp only
    rw [ih]
    cases s.getattr depth name with
    | ok x => cases x <;> simp [Found.deeper, Found.down, Bind.bind, Res.bind, Nat.add_assoc]
    | raise e => rfl
    | timeout => rfl

/-- C109: a value kept by a decorator hides the ones kept deeper. -/
theorem c109_value {α : Type} (d : List (String × α)) (s : Strategy α) (name : String) (v : α)
    (h : d.lookup name = some v) (depth : Nat) :
    (Strategy.decorator d s).getattr (depth + 1) name = .ok (.value 0 v) := by
  simp [Strategy.getattr, ownAttr, h]

/-- C109: `start_new_component` of a decorated strategy is the one of `AllowMoveAZPMaxPRegions`. -/
theorem c109_start {α : Type} (d : List (String × α)) (s : Strategy α)
    (h : "start_new_component" ∉ d.map Prod.fst) (depth : Nat) :
    (Strategy.decorator d s).getattr (depth + 1) "start_new_component" =
      .ok (.method 0 (fn "azp_util.py" 176)) := by
  have e : AllowMoveAZPMaxPRegions.lookup "start_new_component" = some (fn "azp_util.py" 176) := by
    decide +kernel
  simp [Strategy.getattr, ownAttr, (lookup_none d _).2 h, e]

/-- C109: the methods of `AllowMoveAZPSimulatedAnnealing` are found through any number of decorators, with the
decorated object as the object they are bound to; a name which neither has is an `AttributeError`. -/
theorem c109_annealing {α : Type} (ds : List (List (String × α))) (attrs : List (String × α)) (name : String)
    (h : ∀ d ∈ ds, name ∉ d.map Prod.fst) (h0 : name ∉ attrs.map Prod.fst)
    (hs : name ≠ "start_new_component") (depth : Nat) :
    (decorated ds (.plain AllowMoveAZPSimulatedAnnealing attrs)).getattr (depth + 1 + ds.length) name =
      match [("register_sa_moves_term", 106), ("register_move_made", 119), ("notify_min_sa_moves", 131),
        ("notify_move_made", 135), ("update_temperature", 139), ("reset", 142)].lookup name with
      | some line => .ok (.method ds.length (fn "azp_util.py" line))
      | none => .raise .attributeError := by
  rw [c109_forward ds _ name (fun d hd => by
    rintro (h1 | h1)
    · exact h d hd h1
    · exact hs (List.mem_singleton.1 h1))]
  rw [Strategy.getattr, ownAttr, (lookup_none attrs _).2 h0]
  simp only [Class.lookup, AllowMoveAZPSimulatedAnnealing, Class.extend, AllowMoveStrategy, List.findSome?_cons,
    List.findSome?_nil, List.lookup_cons, List.lookup_nil, beq_eq_false_iff_ne.2 hs]
  cases name == "register_sa_moves_term" with
  | true => simp [Found.deeper, Res.bind]
  | false =>
  cases name == "register_move_made" with
  | true => simp [Found.deeper, Res.bind]
  | false =>
  cases name == "notify_min_sa_moves" with
  | true => simp [Found.deeper, Res.bind]
  | false =>
  cases name == "notify_move_made" with
  | true => simp [Found.deeper, Res.bind]
  | false =>
  cases name == "update_temperature" with
  | true => simp [Found.deeper, Res.bind]
  | false =>
  cases name == "reset" with
  | true => simp [Found.deeper, Res.bind]
  | false => simp [Res.bind]

example : (decorated [[("threshold", 3)], [("threshold", 5)]]
    (.plain AllowMoveAZPSimulatedAnnealing [("t", 1)])).getattr 1000 "update_temperature" =
      .ok (.method 2 (fn "azp_util.py" 139)) := by decide +kernel

example : (decorated [[("threshold", 3)], [("threshold", 5)]]
    (.plain AllowMoveAZPSimulatedAnnealing [("t", 1)])).getattr 1000 "t" = .ok (.value 2 1) := by decide +kernel

/-- C109: for an object whose `__init__` has not run, as it is made by `copy.copy` and by `pickle`, any name it
does not have leads to a `RecursionError`, whatever depth of calls is allowed. -/
theorem c109_uninitialised {α : Type} (attrs : List (String × α)) (name : String)
    (h : ¬ Has ["start_new_component"] attrs name)
    (h0 : ¬ Has ["start_new_component"] attrs "_decorated_strategy") (depth : Nat) :
    (Strategy.empty attrs).getattr depth name = .raise .runtimeError := by
  induction depth generalizing name with
  | zero => rfl
  | succ k ih =>
    rw [Strategy.getattr, (ownAttr_none attrs name).2 h]
    exact ih _ h0

example : (Strategy.empty ([] : List (String × Nat))).getattr 1000 "__setstate__" = .raise .runtimeError :=
  c109_uninitialised [] _ (by simp [Has]) (by simp [Has]) 1000

end Region.Props
