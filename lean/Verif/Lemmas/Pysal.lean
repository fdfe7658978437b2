import Verif.Model.Pysal
import Verif.Lemmas.Adapters

/-
Lemmas about `W` objects and geographic data frames.
-/
namespace Region

open Spec

section w
variable {κ : Type} [LinearOrder κ]

theorem listed_iff (w : W κ) (k j : κ) : j ∈ w.listed k ↔ ∃ js, Item w.nb k js ∧ j ∈ js := by
  simp only [W.listed, List.mem_flatten, List.mem_map, List.mem_filter, decide_eq_true_eq, Item]
  constructor
  · rintro ⟨l, ⟨⟨a, b⟩, ⟨h1, rfl⟩, rfl⟩, h2⟩
    exact ⟨b, h1, h2⟩
  · rintro ⟨js, h1, h2⟩
    exact ⟨js, ⟨(k, js), ⟨h1, rfl⟩, rfl⟩, h2⟩

theorem wsparse_eq (w : W κ) (hc : Closed w.nb) :
    ∃ adj, w.sparse = .ok adj ∧ Encodes adj w.order w.nb := by
  refine ⟨_, if_pos ?_, rfl, ?_⟩
  · simp only [List.all_eq_true, List.contains_iff_mem]
    intro e he j hj
    exact (w.ids j).2 (isKey_iff.1 (hc e.1 e.2 he j hj))
  · intro i j a b ha hb
    have ha' : w.order.get i = a := by
      have := List.getElem?_eq_some_iff.1 ha
      exact this.2
    have hb' : w.order.get j = b := by
      have := List.getElem?_eq_some_iff.1 hb
      exact this.2
    show (w.listed (w.order.get i)).contains (w.order.get j) = true ↔ _
    rw [ha', hb', List.contains_iff_mem, listed_iff]

/-- A list of names in ascending order is unique. -/
theorem ascending_unique {α : Type} {d : Dict κ α} {a b : List κ} (ha : Ascending a d)
    (hb : Ascending b d) : a = b := by
  have hp : a.Perm b := (List.perm_ext_iff_of_nodup (ha.1.imp fun h => ne_of_lt h)
    (hb.1.imp fun h => ne_of_lt h)).2 fun k => (ha.2 k).trans (hb.2 k).symm
  exact hp.eq_of_pairwise' (ha.1.imp fun h => le_of_lt h) (hb.1.imp fun h => le_of_lt h)

omit [LinearOrder κ] in
/-- Two matrices encoding the same map with the same names are equal. -/
theorem encodes_unique {n : Nat} {a b : Adj n} {names : List κ} {nb : Dict κ (List κ)}
    (ha : Encodes a names nb) (hb : Encodes b names nb) : a = b := by
  funext i j
  have hi : i.val < names.length := ha.1.symm ▸ i.isLt
  have hj : j.val < names.length := ha.1.symm ▸ j.isLt
  have h1 := ha.2 i j _ _ (List.getElem?_eq_getElem hi) (List.getElem?_eq_getElem hj)
  have h2 := hb.2 i j _ _ (List.getElem?_eq_getElem hi) (List.getElem?_eq_getElem hj)
  exact Bool.eq_iff_iff.2 (h1.trans h2.symm)

omit [LinearOrder κ] in
/-- The same array lists the same values. -/
theorem tabulates_unique {d : Dict κ Val} {ks : List κ} {a b : List (List ℚ)}
    (ha : Tabulates a d ks) (hb : Tabulates b d ks) : a = b := by
  unfold Tabulates at ha hb
  induction ha generalizing b with
  | nil => cases hb; rfl
  | cons h hs ih =>
    cases hb with
    | cons h' hs' =>
      obtain ⟨v, hv, rfl⟩ := h
      obtain ⟨v', hv', rfl⟩ := h'
      rw [item_unique hv hv', ih hs']

omit [LinearOrder κ] in
/-- Equal calls. -/
theorem call_congr {a b : List κ} (h : a = b) {x : Adj a.length} {y : Adj b.length}
    {nb : Dict κ (List κ)} (hx : Encodes x a nb) (hy : Encodes y b nb)
    (attr : List (List ℚ)) (spat : Option (List (List ℚ))) (lab : Option LabelArg) :
    (⟨_, x, attr, spat, lab⟩ : SparseCall) = ⟨_, y, attr, spat, lab⟩ := by
  subst h
  rw [encodes_unique hx hy]

end w

section gdf
variable {κ : Type}

theorem weights_sparse (gdf : GeoFrame κ) (k : Contiguity) :
    ∃ h : (gdf.weights k).order.length = gdf.height, ∃ adj,
      (gdf.weights k).sparse = .ok adj ∧ ∀ i j, adj i j = gdf.touch k (i.cast h) (j.cast h) := by
  have hlen : (gdf.weights k).order.length = gdf.height := by simp [GeoFrame.weights]
  refine ⟨hlen, _, if_pos ?_, ?_⟩
  · simp [GeoFrame.weights]
  · intro i j
    have hget : ∀ x : Fin (gdf.weights k).order.length,
        (gdf.weights k).order.get x = x.cast hlen := by
      intro x
      exact (List.getElem_finRange (n := gdf.height) (i := x.val) x.isLt)
    rw [hget, hget, Bool.eq_iff_iff, List.contains_iff_mem, listed_iff]
    simp [GeoFrame.weights, Item]

/-- Equal calls whose number of areas is written differently. -/
theorem call_cast {n m : Nat} (h : n = m) {x : Adj n} {y : Adj m}
    (hxy : ∀ i j, x i j = y (i.cast h) (j.cast h)) (attr : List (List ℚ))
    (spat : Option (List (List ℚ))) (lab : Option LabelArg) :
    (⟨n, x, attr, spat, lab⟩ : SparseCall) = ⟨m, y, attr, spat, lab⟩ := by
  subst h
  have : x = y := funext fun i => funext fun j => hxy i j
  rw [this]

theorem select_of {df : Frame κ} {cs : List (Fin df.height → ℚ)} {as : List String}
    (h : List.Forall₂ (fun c a => Item df.cols a c) cs as) : df.select as = .ok cs := by
  induction h with
  | nil => rfl
  | cons h hs ih => simp [Frame.select, get_of_item h, ih]

end gdf

end Region
