import Verif.Model.Adapters

/-
What the adapters should do, in terms of the items of dicts only: no model function that searches,
sorts, flattens or reshapes is used here.
-/
namespace Region.Spec

variable {κ α : Type}

/-- `k : v` is an item of the dict. -/
def Item (d : Dict κ α) (k : κ) (v : α) : Prop := (k, v) ∈ d.entries

/-- `k` is a key of the dict. -/
def IsKey (d : Dict κ α) (k : κ) : Prop := ∃ v, Item d k v

/-- Two dicts with the same items, perhaps inserted in another order. -/
def SameItems (d e : Dict κ α) : Prop := ∀ k v, Item d k v ↔ Item e k v

/-- Two dicts with the same keys. -/
def KeysAgree {β : Type} (d : Dict κ α) (e : Dict κ β) : Prop := ∀ k, IsKey d k ↔ IsKey e k

/-- The row of an array holding a value: one entry for a number, all entries of a sequence. -/
def rowOf : Val → List ℚ
  | .num q => [q]
  | .seq l => l

/-- All values are numbers, or all are sequences of `w` numbers. -/
inductive Shape
  | scalars
  | wide (w : Nat)

/-- The width of the rows of an array. -/
def Shape.width : Shape → Nat
  | .scalars => 1
  | .wide w => w

/-- A value of the given shape. -/
def Shaped : Shape → Val → Prop
  | .scalars, .num _ => True
  | .wide w, .seq l => l.length = w
  | _, _ => False

/-- All values of the dict have the same shape. -/
def Uniform (d : Dict κ Val) (s : Shape) : Prop := ∀ k v, Item d k v → Shaped s v

/-- The array has one row per key of the list, in that order, holding that key's value. -/
def Tabulates (arr : List (List ℚ)) (d : Dict κ Val) (ks : List κ) : Prop :=
  List.Forall₂ (fun r k => ∃ v, Item d k v ∧ rowOf v = r) arr ks

/-- The list holds the keys of the dict in ascending order, each once. -/
def Ascending [LT κ] (names : List κ) (d : Dict κ α) : Prop :=
  names.Pairwise (· < ·) ∧ ∀ k, k ∈ names ↔ IsKey d k

/-- The matrix row and column number `i` belong to the `i`-th name, and entry `(i, j)` says
whether name `j` is listed as a neighbor of name `i`. -/
def Encodes {n : Nat} (adj : Adj n) (names : List κ) (nb : Dict κ (List κ)) : Prop :=
  names.length = n ∧ ∀ (i j : Fin n) (a b : κ), names[i.val]? = some a → names[j.val]? = some b →
    (adj i j = true ↔ ∃ js, Item nb a js ∧ b ∈ js)

/-- Every neighbor is an area of the map itself. -/
def Closed (nb : Dict κ (List κ)) : Prop := ∀ k js, Item nb k js → ∀ j ∈ js, IsKey nb j

end Region.Spec

namespace Region.Spec

variable {κ : Type}

/-- The row holds the node's values of the named attributes, in the order of the names. -/
def NodeRow (g : Graph κ) (as : List String) (r : List ℚ) (k : κ) : Prop :=
  List.Forall₂ (fun q a => g.attrs k a = some q) r as

/-- The array has one row per node of the list, in that order, with that node's attributes. -/
def NodeRows (g : Graph κ) (as : List String) (arr : List (List ℚ)) (ks : List κ) : Prop :=
  List.Forall₂ (NodeRow g as) arr ks

/-- Row and column number `i` of the matrix belong to the `i`-th node of the list. -/
def EncodesGraph {n : Nat} (adj : Adj n) (ks : List κ) (g : Graph κ) : Prop :=
  ks.length = n ∧ ∀ (i j : Fin n) (a b : κ), ks[i.val]? = some a → ks[j.val]? = some b →
    adj i j = g.edge a b

/-- Every node has every named attribute. -/
def Complete (g : Graph κ) (as : List String) : Prop :=
  ∀ k ∈ g.nodes, ∀ a ∈ as, (g.attrs k a).isSome

end Region.Spec
