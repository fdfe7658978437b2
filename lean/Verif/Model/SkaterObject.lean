import Verif.Model.Objects
import Verif.Model.Skater
/-
The attributes of a `Spanning_Forest` object of `/repo/region/skater/skater.py`: what `fit` assigns and
when, and the methods that read the attributes (`score` without labels, `make_cut` without a forest).
-/
namespace Region.Skater

/-- An entry of `_trace`: labels and a deletion (`none`: `deletion(nan, nan, inf)`). -/
abbrev TraceEntry := List Int × Option ((Nat × Nat) × ℚ)

/-- The entry for the labels and the deletion of a map with `n` areas. -/
def traceEntry {n : Nat} (p : (Fin n → Int) × Deletion n) : TraceEntry :=
  (arrayList p.1, p.2.map fun d => ((d.1.1.val, d.1.2.val), d.2))

/-- The attributes `current_labels_`, `minimum_spanning_forest_` and `_trace`; `none`: there is no such
attribute.  (`_elapsed_time` and the constructor arguments are left out.) -/
structure Attrs where
  labels : Option (List Int)
  forest : Option (Σ n : Nat, List (Edge n))
  trace : Option (List TraceEntry)

/-- After `__init__` (skater.py 12-40). -/
def Attrs.fresh : Attrs := ⟨none, none, none⟩

/-- `self._trace.append(…)` (skater.py 117, 140). -/
def Attrs.append (p : TraceEntry) (s : Attrs) : Attrs := { s with trace := s.trace.map (· ++ [p]) }

/-- The end of `fit` (skater.py 135-145): both exits assign the labels and the forest. -/
def finish {n : Nat} (msf : List (Edge n)) : Py Attrs Unit := do
  Py.set fun s => { s with labels := some (arrayList (treeLabels msf)) }
  Py.set fun s => { s with forest := some ⟨n, msf⟩ }

/-- The loop of `fit` (skater.py 120-145) with its assignments. -/
def pruneLoopPy (S : SpanningForest) {n m : Nat} (data : Fin n → Row m) (quorum : Option ℚ)
    (target : Option Int) (trace : Bool) : Nat → List (Edge n) → Py Attrs Unit
  | 0, _ => Py.lift .timeout
  | fuel + 1, msf =>
    if fewer (nComponents (adjOf msf)) target then do
      let best ← Py.lift (findCut S msf data quorum none none)
      match best with
      | some (e, v) => do
        let msf' ← Py.lift (makeCut (some (e, v)) msf)
        if trace then Py.set (Attrs.append (traceEntry (treeLabels msf', some (e, v))))
        pruneLoopPy S data quorum target trace fuel msf'
      | none => finish msf
    else finish msf

/-- `fit` (skater.py 68-145) with the kernel and the data in place. -/
def fitKernelPy (o : WeightOrder) (S : SpanningForest) {n m : Nat} (fuel : Nat)
    (nClusters : Option Int) (W : Adj n) (kernel : Fin n → Fin n → ℚ) (data : Fin n → Row m)
    (quorum : Option ℚ) (trace : Bool) (islands : String) : Py Attrs Unit := do
  if trace then Py.set fun s => { s with trace := some [] }
  let msf := spanningForest o (dissim W kernel)
  let k := nComponents (adjOf msf)
  let target ← Py.lift (
    if k > 1 then
      let target := if islands.toLower == "ignore" then nClusters else plus nClusters k
      if ((uniqueCounts (arrayList (treeLabels msf))).map Prod.snd).any (below quorum) then
        .raise (.valueError "Islands must be larger than the quorum.")
      else .ok target
    else .ok nClusters)
  if trace then Py.set (Attrs.append (traceEntry (treeLabels msf, none)))
  pruneLoopPy S data quorum target trace fuel msf

/-- `fit` (skater.py 47-145). -/
def fitPy (o : WeightOrder) (S : SpanningForest) {n : Nat} (fuel : Nat) (nClusters : Option Int)
    (W : Adj n) (data : Option (Σ m : Nat, Fin n → Row m)) (quorum : Option ℚ) (trace : Bool)
    (islands : String) : Py Attrs Unit :=
  match data with
  | none => fitKernelPy o S (m := 1) fuel nClusters W (fun _ _ => 1) (fun _ _ => 1) quorum trace islands
  | some ⟨_, data⟩ =>
    fitKernelPy o S fuel nClusters W (S.metric.kernel data) data quorum trace islands

/-- `score` (skater.py 147-180): without labels those of the last fit are used; the number of labels has to
be the number of rows. -/
def scorePy (S : SpanningForest) {n m : Nat} (data : Fin n → Row m) (labels : Option (List Int))
    (quorum : Option ℚ) : Py Attrs (Option ℚ) := do
  let labels ← Py.read fun s => match labels with
    | some l => .ok l
    | none => match s.labels with
      | some l => .ok l
      | none => .raise (.valueError
          "Labels not provided and MSF_Prune object has not been fit to data yet.")
  if h : n = labels.length then Py.lift (score S data (fun i => labels[i]) quorum)
  else Py.lift (.raise .assertionError)

/-- `make_cut(in_node, out_node, score)` without a forest (skater.py 257-263): the forest of the object is
changed in place; the new forest, its number of components and their labels are returned.  The score
`none` is infinite. -/
def makeCutPy (e : Nat × Nat) (score : Option ℚ) :
    Py Attrs (Σ n : Nat, List (Edge n) × Nat × (Fin n → Int)) := do
  let msf ← Py.read fun s => match s.forest with
    | some msf => .ok msf
    | none => .raise .attributeError
  match score with
  | none => Py.lift (.raise .optimizeWarning)
  | some _ =>
    if h : e.1 < msf.1 ∧ e.2 < msf.1 then do
      let cut := msf.2.erase (⟨e.1, h.1⟩, ⟨e.2, h.2⟩)
      Py.set fun s => { s with forest := some ⟨msf.1, cut⟩ }
      pure ⟨msf.1, cut, nComponents (adjOf cut), treeLabels cut⟩
    else Py.lift (.raise .indexError)

end Region.Skater
