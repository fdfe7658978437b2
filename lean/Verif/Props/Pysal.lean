import Verif.Lemmas.Pysal
import Verif.Props.Adapters
import Verif.Props.Options

/-
Properties of `fit_from_w` and `fit_from_geodataframe`.
-/
namespace Region.Props

open Spec

/-! ### Example data -/

/-- The path 2 - 0 - 1, whose ids come in the order 2, 0, 1. -/
def wPath : W Nat where
  nb := ⟨[(0, [2, 1]), (1, [0]), (2, [0])], by decide⟩
  order := [2, 0, 1]
  nodup := by decide
  ids := by intro k; simp [Dict.keys]; omega

/-- The path 0 - 1 - 2 - 3 in ascending order. -/
def wAscending : W Nat where
  nb := pathDict
  order := [0, 1, 2]
  nodup := by decide
  ids := by intro k; simp [Dict.keys, pathDict]; try omega

/-- Four squares in a two by two block, with two columns and a meaningless index. -/
def block : GeoFrame Nat where
  height := 4
  index := ![7, 7, 3, 9]
  cols := ⟨[("v", ![1, 2, 3, 4]), ("w", ![10, 20, 30, 40])], by decide⟩
  touch k i j := match k with
    | .rook => i ≠ j ∧ (i.val / 2 = j.val / 2 ∨ i.val % 2 = j.val % 2)
    | .queen => i ≠ j

/-! ### C95: the pysal entry points -/

section w
variable {κ : Type} [LinearOrder κ]

/-- `fit_from_w` of AZP, of simulated annealing and of the exact p-regions method: row `i` of the
matrix belongs to the `i`-th id, and attributes and labels are handed on untouched. -/
theorem c95_w_azp (w : W κ) (hc : Closed w.nb) (attr : List (List ℚ)) (lab : Option LabelArg) :
    ∃ c, azpFromW w attr lab = .ok c ∧ Encodes c.adj w.order w.nb ∧ c.attr = attr ∧
      c.spat = none ∧ c.labels = lab := by
  obtain ⟨adj, h1, h2⟩ := wsparse_eq w hc
  exact ⟨⟨_, adj, attr, none, lab⟩, by simp [azpFromW, h1], h2, rfl, rfl, rfl⟩

example : ∃ c, azpFromW wPath [[5], [6], [7]] (some (.flat [0, 0, 1])) = .ok c ∧
    Encodes c.adj [2, 0, 1] wPath.nb ∧ c.attr = [[5], [6], [7]] ∧ c.spat = none ∧
    c.labels = some (.flat [0, 0, 1]) :=
  c95_w_azp wPath (closed_of_check (by decide)) _ _

/-- `fit_from_w` of both max-p methods. -/
theorem c95_w_maxp (w : W κ) (hc : Closed w.nb) (attr spat : List (List ℚ)) :
    ∃ c, maxpFromW w attr spat = .ok c ∧ Encodes c.adj w.order w.nb ∧ c.attr = attr ∧
      c.spat = some spat ∧ c.labels = none := by
  obtain ⟨adj, h1, h2⟩ := wsparse_eq w hc
  exact ⟨⟨_, adj, attr, some spat, none⟩, by simp [maxpFromW, h1], h2, rfl, rfl, rfl⟩

example : ∃ c, maxpFromW wPath [[5], [6], [7]] [[1], [2], [3]] = .ok c ∧
    Encodes c.adj [2, 0, 1] wPath.nb ∧ c.attr = [[5], [6], [7]] ∧
    c.spat = some [[1], [2], [3]] ∧ c.labels = none :=
  c95_w_maxp wPath (closed_of_check (by decide)) _ _

/-- A neighbor that is not an id raises `KeyError`. -/
theorem c95_w_key_error (w : W κ) (h : ∃ k js j, Item w.nb k js ∧ j ∈ js ∧ ¬ IsKey w.nb j)
    (attr spat : List (List ℚ)) (lab : Option LabelArg) :
    azpFromW w attr lab = .raise .keyError ∧ maxpFromW w attr spat = .raise .keyError := by
  obtain ⟨k, js, j, h1, h2, h3⟩ := h
  have : w.sparse = .raise .keyError := by
    refine if_neg ?_
    simp only [List.all_eq_true, List.contains_iff_mem]
    intro hall
    exact h3 (isKey_iff.2 ((w.ids j).1 (hall (k, js) h1 j h2)))
  simp [azpFromW, maxpFromW, this]

example : azpFromW (⟨⟨[(0, [1]), (1, [5])], by decide⟩, [0, 1], by decide,
    by intro k; simp [Dict.keys]⟩ : W Nat) [[1], [2]] none = .raise .keyError :=
  (c95_w_key_error _ ⟨1, [5], 5, by simp [Item], by decide, by simp [isKey_iff, Dict.keys]⟩
    _ [] none).1

/-- When the ids are in ascending order, `fit_from_w` makes the same call as `fit_from_dict`. -/
theorem c95_w_same_as_dict (w : W κ) (hc : Closed w.nb) (hne : w.nb.entries ≠ [])
    (horder : Ascending w.order w.nb) (d : Dict κ Val) (s : Shape) (hk : KeysAgree d w.nb)
    (hs : Uniform d s) (arr : List (List ℚ)) (harr : Tabulates arr d w.order) :
    azpFromW w arr none = azpFromDict w.nb d none := by
  obtain ⟨adj, h1, h2⟩ := wsparse_eq w hc
  obtain ⟨adj', h3, h4⟩ := sparseFromDict_eq hc
  have hsort := ascending_unique horder (ascending_sorted w.nb)
  have hne' : w.nb.sorted ≠ [] := by
    intro h0
    have := sorted_len w.nb
    rw [h0] at this
    exact hne (List.length_eq_zero_iff.1 this.symm)
  obtain ⟨arr', h5, h6⟩ := array_eq hs (keys := some w.nb.sorted) hne'
    (fun k h => (hk k).2 (((ascending_sorted w.nb).2 k).1 h))
    ((sorted_len w.nb).trans hk.len.symm)
  have hav : arr = arr' := tabulates_unique harr (by rw [hsort]; exact h6)
  subst hav
  simp only [azpFromW, azpFromDict, h1, h3, h5, Res.bind_ok]
  rw [call_congr hsort h2 (encodes_of h4)]
end w

example : azpFromW wAscending [[0, 1], [10, 11], [20, 21]] none = azpFromDict pathDict attrDict none :=
  c95_w_same_as_dict wAscending (closed_of_check (by decide)) (by decide)
    ⟨by decide, fun k => by rw [isKey_iff]; exact wAscending.ids k⟩ attrDict _
    (keysAgree_of_keys (by decide)) attrDict_uniform _ (by
      refine .cons ⟨.seq [0, 1], ?_, rfl⟩ (.cons ⟨.seq [10, 11], ?_, rfl⟩
        (.cons ⟨.seq [20, 21], ?_, rfl⟩ .nil)) <;> simp [Item, attrDict])

/-- The contiguity asked for. -/
def Asked (k : Contiguity) (s : String) : Prop :=
  (k = .rook ∧ s.toLower = "rook") ∨ (k = .queen ∧ s.toLower = "queen")

/-- Row `i` of the array holds the values of the named columns in row `i` of the frame. -/
def FrameRows {κ : Type} (df : Frame κ) (as : List String) (arr : List (List ℚ)) : Prop :=
  arr.length = df.height ∧ ∀ (i : Fin df.height) (r : List ℚ), arr[i.val]? = some r →
    List.Forall₂ (fun q a => ∃ c, Item df.cols a c ∧ c i = q) r as

section gdf
variable {κ : Type}

theorem asked_ok {k : Contiguity} {s : String} (h : Asked k s) : wFromGdf (.str s) = .ok k := by
  rcases h with ⟨rfl, h⟩ | ⟨rfl, h⟩
  · exact (c83_contiguity s).1.2 h
  · exact (c83_contiguity s).2.1.2 h

/-- `fit_from_geodataframe` of AZP, of simulated annealing and of the exact p-regions method:
row `i` of the matrix and of the attributes is row `i` of the frame; labels are handed on
untouched. -/
theorem c95_gdf_azp (gdf : GeoFrame κ) (as : List String) (hcols : ∀ a ∈ as, IsKey gdf.cols a)
    (k : Contiguity) (s : String) (hs : Asked k s) (lab : Option LabelArg) :
    ∃ c, azpFromGdf gdf (.names as) (.str s) lab = .ok c ∧
      (∃ h : c.n = gdf.height, ∀ i j, c.adj i j = gdf.touch k (i.cast h) (j.cast h)) ∧
      FrameRows gdf.toFrame as c.attr ∧ c.spat = none ∧ c.labels = lab := by
  obtain ⟨arr, h1, h2⟩ := c82_rows gdf.toFrame as hcols
  obtain ⟨h3, adj, h4, h5⟩ := weights_sparse gdf k
  refine ⟨⟨_, adj, arr, none, lab⟩, ?_, ⟨h3, h5⟩, h2, rfl, rfl⟩
  simp [azpFromGdf, asked_ok hs, h1, azpFromW, h4]

example : ∃ c, azpFromGdf block (.names ["w", "v"]) (.str "Rook") (some (.flat [0, 0, 1, 1])) =
      .ok c ∧
    (∃ h : c.n = 4, ∀ i j, c.adj i j = block.touch .rook (i.cast h) (j.cast h)) ∧
    FrameRows block.toFrame ["w", "v"] c.attr ∧ c.spat = none ∧
    c.labels = some (.flat [0, 0, 1, 1]) :=
  c95_gdf_azp block ["w", "v"] (by
    intro a ha
    rw [isKey_iff]
    simp only [List.mem_cons, List.not_mem_nil, or_false] at ha
    rcases ha with rfl | rfl <;> decide) .rook "Rook" (Or.inl ⟨rfl, by decide +kernel⟩) _

/-- `fit_from_geodataframe` of both max-p methods. -/
theorem c95_gdf_maxp (gdf : GeoFrame κ) (as bs : List String) (hcols : ∀ a ∈ as, IsKey gdf.cols a)
    (hspat : ∀ a ∈ bs, IsKey gdf.cols a) (k : Contiguity) (s : String) (hs : Asked k s) :
    ∃ c sarr, maxpFromGdf gdf (.names as) (.names bs) (.str s) = .ok c ∧
      (∃ h : c.n = gdf.height, ∀ i j, c.adj i j = gdf.touch k (i.cast h) (j.cast h)) ∧
      FrameRows gdf.toFrame as c.attr ∧ c.spat = some sarr ∧ FrameRows gdf.toFrame bs sarr ∧
      c.labels = none := by
  obtain ⟨arr, h1, h2⟩ := c82_rows gdf.toFrame as hcols
  obtain ⟨sarr, h6, h7⟩ := c82_rows gdf.toFrame bs hspat
  obtain ⟨h3, adj, h4, h5⟩ := weights_sparse gdf k
  refine ⟨⟨_, adj, arr, some sarr, none⟩, sarr, ?_, ⟨h3, h5⟩, h2, rfl, h7, rfl⟩
  simp [maxpFromGdf, asked_ok hs, h1, h6, maxpFromW, h4]

example : ∃ c sarr, maxpFromGdf block (.names ["v"]) (.names ["w"]) (.str "queen") = .ok c ∧
    (∃ h : c.n = 4, ∀ i j, c.adj i j = block.touch .queen (i.cast h) (j.cast h)) ∧
    FrameRows block.toFrame ["v"] c.attr ∧ c.spat = some sarr ∧
    FrameRows block.toFrame ["w"] sarr ∧ c.labels = none :=
  c95_gdf_maxp block ["v"] ["w"] (by simp [isKey_iff, Dict.keys, block])
    (by simp [isKey_iff, Dict.keys, block]) .queen "queen" (Or.inr ⟨rfl, by decide +kernel⟩)

/-- The index of the frame does not matter, whatever the other arguments are: duplicate or
shuffled index labels cannot mix up the rows. -/
theorem c95_gdf_index {κ' : Type} (gdf : GeoFrame κ) (idx : Fin gdf.height → κ')
    (attr spat : ColArg) (contiguity : PyStr) (lab : Option LabelArg) :
    azpFromGdf ⟨⟨gdf.height, idx, gdf.cols⟩, gdf.touch⟩ attr contiguity lab =
      azpFromGdf gdf attr contiguity lab ∧
    maxpFromGdf ⟨⟨gdf.height, idx, gdf.cols⟩, gdf.touch⟩ attr spat contiguity =
      maxpFromGdf gdf attr spat contiguity := by
  have hsel : ∀ as, Frame.select (⟨gdf.height, idx, gdf.cols⟩ : Frame κ') as =
      gdf.toFrame.select as := by
    intro as
    induction as with
    | nil => rfl
    | cons a as ih => simp only [Frame.select, ih]
  have harr : ∀ a, arrayFromDfCol (⟨gdf.height, idx, gdf.cols⟩ : Frame κ') a =
      arrayFromDfCol gdf.toFrame a := by
    intro a
    cases a <;> simp only [arrayFromDfCol, hsel]
  constructor
  · simp only [azpFromGdf, harr]; rfl
  · simp only [maxpFromGdf, harr]; rfl

example : azpFromGdf ⟨⟨4, ![1, 2, 3, 4], block.cols⟩, block.touch⟩ (.name "v") (.str "rook") none =
    azpFromGdf block (.name "v") (.str "rook") none :=
  (c95_gdf_index block ![1, 2, 3, 4] (.name "v") .other (.str "rook") none).1

/-- An unknown contiguity is a `ValueError` before anything else is looked at; with a known one an
unknown column is a `KeyError`. -/
theorem c95_gdf_errors (gdf : GeoFrame κ) (lab : Option LabelArg) :
    (∀ s attr spat, s.toLower ≠ "rook" → s.toLower ≠ "queen" →
      (∃ msg, azpFromGdf gdf attr (.str s) lab = .raise (.valueError msg)) ∧
      ∃ msg, maxpFromGdf gdf attr spat (.str s) = .raise (.valueError msg)) ∧
    (∀ attr spat, (∃ msg, azpFromGdf gdf attr .other lab = .raise (.valueError msg)) ∧
      ∃ msg, maxpFromGdf gdf attr spat .other = .raise (.valueError msg)) ∧
    (∀ k s as spat, Asked k s → (∃ a ∈ as, ¬ IsKey gdf.cols a) →
      azpFromGdf gdf (.names as) (.str s) lab = .raise .keyError ∧
      maxpFromGdf gdf (.names as) spat (.str s) = .raise .keyError) ∧
    (∀ k s as bs, Asked k s → (∀ a ∈ as, IsKey gdf.cols a) → (∃ b ∈ bs, ¬ IsKey gdf.cols b) →
      maxpFromGdf gdf (.names as) (.names bs) (.str s) = .raise .keyError) := by
  refine ⟨fun s attr spat h1 h2 => ?_, fun attr spat => ?_, fun k s as spat hs h => ?_,
    fun k s as bs hs h1 h2 => ?_⟩
  · obtain ⟨msg, hm⟩ := (c83_contiguity s).2.2.1.2 ⟨h1, h2⟩
    exact ⟨⟨msg, by simp [azpFromGdf, hm]⟩, msg, by simp [maxpFromGdf, hm]⟩
  · obtain ⟨msg, hm⟩ := (c83_contiguity "").2.2.2
    exact ⟨⟨msg, by simp [azpFromGdf, hm]⟩, msg, by simp [maxpFromGdf, hm]⟩
  · have := (c82_errors gdf.toFrame).2.1 as h
    simp [azpFromGdf, maxpFromGdf, asked_ok hs, this]
  · obtain ⟨arr, h3, -⟩ := c82_rows gdf.toFrame as h1
    have := (c82_errors gdf.toFrame).2.1 bs h2
    simp [maxpFromGdf, asked_ok hs, h3, this]

example : azpFromGdf block (.names ["v", "x"]) (.str "queen") none = .raise .keyError :=
  ((c95_gdf_errors block none).2.2.1 .queen "queen" ["v", "x"] .other
    (Or.inr ⟨rfl, by decide +kernel⟩) ⟨"x", by simp, by simp [isKey_iff, Dict.keys, block]⟩).1

/-- Fitting from a frame is fitting on the touching relation and on the rows of the frame. -/
theorem c95_gdf_fit (gdf : GeoFrame κ) (as : List String) (cs : List (Fin gdf.height → ℚ))
    (hcols : List.Forall₂ (fun c a => Item gdf.cols a c) cs as) (k : Contiguity) (s : String)
    (hs : Asked k s) (o : MstOrder) (expf : ℚ → ℚ) (obj : Objective (List ℚ)) (fuel : Nat)
    (p : Int) (rng : Rng) :
    (do let c ← azpFromGdf gdf (.names as) (.str s) none
        c.azp o expf obj fuel p rng) =
      (do let (lab, _, _) ← azpFit (q := 1) o expf obj fuel (gdf.touch k)
            (fun i => cs.map fun c => c i) p none (.azp 0) rng
          .ok (arrayList lab)) := by
  obtain ⟨h3, adj, h4, h5⟩ := weights_sparse gdf k
  have hcall : azpFromGdf gdf (.names as) (.str s) none =
      .ok ⟨gdf.height, gdf.touch k, rowsOf cs, none, none⟩ := by
    simp only [azpFromGdf, asked_ok hs, arrayFromDfCol, select_of hcols, azpFromW, h4, Res.bind_ok]
    rw [call_cast h3 h5]
  have hrows : rowsFor gdf.height (rowsOf cs) = .ok fun i => cs.map fun c => c i := by
    rw [rowsFor, dif_pos (by simp [rowsOf])]
    simp [rowsOf]
  rw [hcall]
  simp only [Res.bind_ok, SparseCall.azp, labelsFor, hrows]

example : (do let c ← azpFromGdf block (.names ["v"]) (.str "rook") none
              c.azp .rowMajor id (pairwise fun a b => |a.sum - b.sum|) 50 2 (fun _ => 0)) =
    (do let (lab, _, _) ← azpFit (q := 1) .rowMajor id (pairwise fun a b => |a.sum - b.sum|) 50
          (block.touch .rook) (fun i => [(![1, 2, 3, 4] : Fin 4 → ℚ)].map fun c => c i) 2 none (.azp 0) (fun _ => 0)
        .ok (arrayList lab)) :=
  c95_gdf_fit block ["v"] [![1, 2, 3, 4]] (.cons (List.mem_cons_self ..) .nil) .rook "rook"
    (Or.inl ⟨rfl, by decide +kernel⟩) _ _ _ _ _ _

end gdf

end Region.Props
