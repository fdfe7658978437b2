import Verif.Model.Adapters

/-
The entry points for the objects of pysal: `fit_from_w` and `fit_from_geodataframe`.

Simplifications: a `W` object is its dict of neighbors together with its `id_order`; its weights
are all 1.  Which polygons touch is computed by libpysal and is a parameter; `from_dataframe`
numbers the areas by the rows of the frame.
-/
namespace Region

/-- A `libpysal.weights.W`: who borders whom, and the order of the ids (`w.id_order`). -/
structure W (κ : Type) where
  nb : Dict κ (List κ)
  order : List κ
  nodup : order.Nodup
  ids : ∀ k, k ∈ order ↔ k ∈ nb.keys

section w
variable {κ : Type} [DecidableEq κ]

/-- The neighbors listed for an id. -/
def W.listed (w : W κ) (k : κ) : List κ := ((w.nb.entries.filter fun e => e.1 = k).map (·.2)).flatten

/-- `scipy_sparse_matrix_from_w(w)`, which is `w.sparse` (util.py 125-150): the rows follow
`w.id_order`; libpysal looks every neighbor up among the ids. -/
def W.sparse (w : W κ) : Res (Adj w.order.length) :=
  if w.nb.entries.all fun e => e.2.all fun j => w.order.contains j then
    .ok fun i j => (w.listed (w.order.get i)).contains (w.order.get j)
  else .raise .keyError

/-- `AZP.fit_from_w` (azp.py 116-148), `AZPSimulatedAnnealing.fit_from_w` (azp.py 664-698) and,
without labels, `PRegionsExact.fit_from_w` (p_regions/exact.py 256-287). -/
def azpFromW (w : W κ) (attr : List (List ℚ)) (labels : Option LabelArg) : Res SparseCall := do
  let adj ← w.sparse
  .ok ⟨_, adj, attr, none, labels⟩

/-- `MaxPRegionsHeu.fit_from_w` (heuristics.py 304-343) and `MaxPRegionsExact.fit_from_w`
(max_p_regions/exact.py 344-386). -/
def maxpFromW (w : W κ) (attr spat : List (List ℚ)) : Res SparseCall := do
  let adj ← w.sparse
  .ok ⟨_, adj, attr, some spat, none⟩

end w

/-- A `GeoDataFrame`: a data frame whose rows have a geometry; `touch` says which rows share an
edge (rook) or at least a point (queen). -/
structure GeoFrame (κ : Type) extends Frame κ where
  touch : Contiguity → Fin height → Fin height → Bool

section gdf
variable {κ : Type}

/-- `weights.Rook.from_dataframe(gdf)` and `weights.Queen.from_dataframe(gdf)`: the ids are the
row numbers (util.py 361-364). -/
def GeoFrame.weights (gdf : GeoFrame κ) (k : Contiguity) : W (Fin gdf.height) where
  nb :=
    { entries := (List.finRange gdf.height).map fun i =>
        (i, (List.finRange gdf.height).filter fun j => gdf.touch k i j)
      nodup := by simpa [List.map_map, Function.comp_def] using List.nodup_finRange _ }
  order := List.finRange gdf.height
  nodup := List.nodup_finRange _
  ids := by intro i; simp [Dict.keys]

/-- `AZP.fit_from_geodataframe` (azp.py 200-238), `AZPSimulatedAnnealing.fit_from_geodataframe`
(azp.py 460-501) and, without labels, `PRegionsExact.fit_from_geodataframe`
(p_regions/exact.py 167-209). -/
def azpFromGdf (gdf : GeoFrame κ) (attr : ColArg) (contiguity : PyStr) (labels : Option LabelArg) :
    Res SparseCall := do
  let k ← wFromGdf contiguity
  let attr ← arrayFromDfCol gdf.toFrame attr
  azpFromW (gdf.weights k) attr labels

/-- `MaxPRegionsHeu.fit_from_geodataframe` (heuristics.py 193-241) and
`MaxPRegionsExact.fit_from_geodataframe` (max_p_regions/exact.py 233-281). -/
def maxpFromGdf (gdf : GeoFrame κ) (attr spat : ColArg) (contiguity : PyStr) : Res SparseCall := do
  let k ← wFromGdf contiguity
  let attr ← arrayFromDfCol gdf.toFrame attr
  let spat ← arrayFromDfCol gdf.toFrame spat
  maxpFromW (gdf.weights k) attr spat

end gdf

end Region
