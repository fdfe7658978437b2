import Verif.Lemmas.Adapters
import Verif.Props.Util

/-
Properties of the adapters (`fit_from_*`) and of the validation of options.
-/
namespace Region.Props

open Spec

variable {κ β : Type} [LinearOrder κ]

/-! ### Example data -/

/-- A path 1 - 0 - 2 whose areas were inserted in the order 2, 0, 1. -/
def pathDict : Dict Nat (List Nat) := ⟨[(2, [0]), (0, [1, 2]), (1, [0])], by decide⟩

/-- The same path inserted in ascending order. -/
def pathDict' : Dict Nat (List Nat) := ⟨[(0, [1, 2]), (1, [0]), (2, [0])], by decide⟩

/-- Two attributes per area, inserted in the order 1, 2, 0. -/
def attrDict : Dict Nat Val :=
  ⟨[(1, .seq [10, 11]), (2, .seq [20, 21]), (0, .seq [0, 1])], by decide⟩

/-- The same attributes inserted in ascending order. -/
def attrDict' : Dict Nat Val :=
  ⟨[(0, .seq [0, 1]), (1, .seq [10, 11]), (2, .seq [20, 21])], by decide⟩

/-- Labels of the three areas. -/
def labelDict : Dict Nat Val := ⟨[(2, .num 7), (1, .num 7), (0, .num 7)], by decide⟩

theorem attrDict_uniform : Uniform attrDict (.wide 2) := by
  intro k v hv
  simp only [Item, attrDict, List.mem_cons, Prod.mk.injEq, List.not_mem_nil, or_false] at hv
  rcases hv with ⟨-, rfl⟩ | ⟨-, rfl⟩ | ⟨-, rfl⟩ <;> rfl

theorem labelDict_uniform : Uniform labelDict .scalars := by
  intro k v hv
  simp only [Item, labelDict, List.mem_cons, Prod.mk.injEq, List.not_mem_nil, or_false] at hv
  rcases hv with ⟨-, rfl⟩ | ⟨-, rfl⟩ | ⟨-, rfl⟩ <;> trivial

theorem keysAgree_of_keys {α β : Type} {d : Dict Nat α} {e : Dict Nat β}
    (h : d.sameKeys e = true) : KeysAgree d e := sameKeys_iff.1 h

theorem closed_of_check {nb : Dict Nat (List Nat)}
    (h : (nb.entries.all fun e => e.2.all fun j => nb.keys.contains j) = true) : Closed nb := by
  intro k js hi j hj
  rw [isKey_iff]
  have := List.all_eq_true.1 (List.all_eq_true.1 h _ hi) j hj
  simpa using this

/-! ### C12: `array_from_dict_values` -/

/-- Without `sorted_keys` the rows follow the keys in ascending order. -/
theorem c12_default (d : Dict κ Val) (s : Shape) (hu : Uniform d s) (hne : d.entries ≠ []) :
    ∃ names arr, Ascending names d ∧ arrayFromDictValues d none = .ok arr ∧
      Tabulates arr d names := by
  have hl : d.sorted.length = d.len := sorted_len d
  obtain ⟨arr, h1, h2⟩ := array_eq hu (keys := none)
    (by
      intro h0
      rw [Option.getD_none] at h0
      rw [h0] at hl
      exact hne (List.length_eq_zero_iff.1 hl.symm))
    (fun k hk => ((ascending_sorted d).2 k).1 hk) hl
  exact ⟨_, arr, ascending_sorted d, h1, h2⟩

example : ∃ names arr, Ascending names attrDict ∧ arrayFromDictValues attrDict none = .ok arr ∧
    Tabulates arr attrDict names :=
  c12_default attrDict _ attrDict_uniform (by decide)

example : arrayFromDictValues attrDict none = .ok [[0, 1], [10, 11], [20, 21]] := by
  decide +kernel

/-- With `sorted_keys` the rows follow that sequence, provided it has as many keys as the dict.
The docstring promises it for subsets and repetitions too; see the counterexamples. -/
theorem c12_keys_partial (d : Dict κ Val) (s : Shape) (hu : Uniform d s) (ks : List κ)
    (hne : ks ≠ []) (hk : ∀ k ∈ ks, IsKey d k) (hlen : ks.length = d.len) :
    ∃ arr, arrayFromDictValues d (some ks) = .ok arr ∧ Tabulates arr d ks :=
  array_eq hu (keys := some ks) hne hk hlen

example : ∃ arr, arrayFromDictValues attrDict (some [2, 0, 2]) = .ok arr ∧
    Tabulates arr attrDict [2, 0, 2] :=
  c12_keys_partial attrDict _ attrDict_uniform _ (by decide)
    (by simp [isKey_iff, attrDict, Dict.keys]) (by decide)

/-- Flattened output is right for every non-empty sequence of keys, repeated or not. -/
theorem c12_flat (d : Dict κ Val) (s : Shape) (hu : Uniform d s) (conv : ℚ → β) (ks : List κ)
    (hne : ks ≠ []) (hk : ∀ k ∈ ks, IsKey d k) :
    ∃ arr, Tabulates arr d ks ∧
      flatFromDictValues d (some ks) conv = .ok (arr.flatten.map conv) := by
  obtain ⟨arr, h1, -, h3⟩ := flat_eq (conv := conv) hu (keys := some ks) hne hk
  exact ⟨arr, h1, h3⟩

example : flatFromDictValues attrDict (some [2, 2]) id = .ok [20, 21, 20, 21] := by
  decide +kernel

/-- The array has the promised rows exactly when there are as many keys as the dict has items:
the code reshapes to the length of the dict. -/
theorem c12_exactly (d : Dict κ Val) (s : Shape) (hu : Uniform d s) (ks : List κ)
    (hne : ks ≠ []) (hk : ∀ k ∈ ks, IsKey d k) :
    (∃ arr, arrayFromDictValues d (some ks) = .ok arr ∧ Tabulates arr d ks) ↔
      ks.length = d.len := by
  constructor
  · rintro ⟨arr, h1, h2⟩
    obtain ⟨flat, -, h3⟩ := Res.bind_eq_ok.1 h1
    rw [← h2.length, reshapeRows_length h3]
  · exact c12_keys_partial d s hu ks hne hk

/-- A subset of the keys makes the reshape fail. -/
theorem c12_subset_raises :
    arrayFromDictValues attrDict (some [0, 2]) = .raise (.valueError "cannot reshape array") := by
  decide +kernel

/-- Or it silently gives an array of another shape: two of four keys, two numbers each, become
four rows of one number. -/
theorem c12_subset_reshaped : ∃ d : Dict Nat Val, Uniform d (.wide 2) ∧
    arrayFromDictValues d (some [0, 1]) = .ok [[1], [2], [3], [4]] := by
  refine ⟨⟨[(0, .seq [1, 2]), (1, .seq [3, 4]), (2, .seq [5, 6]), (3, .seq [7, 8])],
    by decide⟩, ?_, by decide +kernel⟩
  intro k v hv
  simp only [Item, List.mem_cons, Prod.mk.injEq, List.not_mem_nil, or_false] at hv
  rcases hv with ⟨-, rfl⟩ | ⟨-, rfl⟩ | ⟨-, rfl⟩ | ⟨-, rfl⟩ <;> rfl

/-- Repeated keys are merged into longer rows. -/
theorem c12_repeated_merged :
    arrayFromDictValues (⟨[(0, .num 5), (1, .num 6)], by decide⟩ : Dict Nat Val)
      (some [0, 0, 1, 1]) = .ok [[5, 5], [6, 6]] := by
  decide +kernel

/-- A key that is not in the dict raises `KeyError`; no keys at all raise `IndexError`. -/
theorem c12_missing (d : Dict κ Val) (s : Shape) (hu : Uniform d s) (ks : List κ) :
    ((∃ k ∈ ks, ¬ IsKey d k) → arrayFromDictValues d (some ks) = .raise .keyError) ∧
    (ks = [] → arrayFromDictValues d (some ks) = .raise .indexError) := by
  refine ⟨fun h => ?_, ?_⟩
  · have hp : ∀ ks : List κ, (∃ k ∈ ks, ¬ IsKey d k) →
        (s = .scalars → plainValues d (id : ℚ → ℚ) ks = .raise .keyError) ∧
        (∀ w, s = .wide w → chainValues d (id : ℚ → ℚ) ks = .raise .keyError) := by
      intro ks
      induction ks with
      | nil => simp
      | cons k ks ih =>
        intro h
        by_cases hk : IsKey d k
        · have h' : ∃ k ∈ ks, ¬ IsKey d k := by
            obtain ⟨k', hk', hn⟩ := h
            rcases List.mem_cons.1 hk' with rfl | h'
            · exact absurd hk hn
            · exact ⟨k', h', hn⟩
          obtain ⟨v, hv⟩ := hk
          have hs := hu k v hv
          constructor
          · rintro rfl
            match v, hv, hs with
            | .num q, hv, _ => simp [plainValues, get_of_item hv, (ih h').1 rfl]
          · rintro w rfl
            match v, hv, hs with
            | .seq q, hv, _ => simp [chainValues, get_of_item hv, (ih h').2 w rfl]
        · exact ⟨fun _ => by simp [plainValues, get_of_not_key hk],
            fun _ _ => by simp [chainValues, get_of_not_key hk]⟩
    unfold arrayFromDictValues flatFromDictValues
    rw [Option.getD_some]
    match ks, h with
    | k :: ks, h =>
      by_cases hk : IsKey d k
      · obtain ⟨v, hv⟩ := hk
        have hs := hu k v hv
        have hp' := hp _ h
        match s, v, hv, hs with
        | .scalars, .num q, hv, _ => simp [get_of_item hv, hp'.1 rfl]
        | .wide w, .seq q, hv, _ => simp [get_of_item hv, hp'.2 w rfl]
      · simp [get_of_not_key hk]
  · rintro rfl
    rfl

example : arrayFromDictValues attrDict (some [0, 5, 1]) = .raise .keyError :=
  (c12_missing attrDict _ attrDict_uniform _).1 ⟨5, by decide, by
    simp [isKey_iff, attrDict, Dict.keys]⟩

/-! ### C13: `scipy_sparse_matrix_from_dict` -/

/-- Entry `(i, j)` is 1 exactly when the `j`-th area, in ascending order, is listed among the
neighbors of the `i`-th. -/
theorem c13_entries (nb : Dict κ (List κ)) (hc : Closed nb) :
    ∃ adj, sparseFromDict nb = .ok adj ∧ ∃ names, Ascending names nb ∧ Encodes adj names nb := by
  obtain ⟨adj, h1, h2⟩ := sparseFromDict_eq hc
  exact ⟨adj, h1, nb.sorted, ascending_sorted nb, encodes_of h2⟩

example : ∃ adj, sparseFromDict pathDict = .ok adj ∧
    ∃ names, Ascending names pathDict ∧ Encodes adj names pathDict :=
  c13_entries pathDict (closed_of_check (by decide))

/-- A neighbor that is not an area raises `KeyError`. -/
theorem c13_key_error (nb : Dict κ (List κ)) (h : ∃ k js j, Item nb k js ∧ j ∈ js ∧ ¬ IsKey nb j) :
    sparseFromDict nb = .raise .keyError := by
  refine sparseFromDict_raise fun hc => ?_
  obtain ⟨k, js, j, h1, h2, h3⟩ := h
  exact h3 (hc k js h1 j h2)

example : sparseFromDict (⟨[(0, [1]), (1, [0, 5])], by decide⟩ : Dict Nat (List Nat)) =
    .raise .keyError :=
  c13_key_error _ ⟨1, [0, 5], 5, by simp [Item], by decide, by simp [isKey_iff, Dict.keys]⟩

/-! ### C14: `fit_from_dict` pairs each area with its own data -/

/-- `AZP.fit_from_dict`: matrix, attributes and labels are numbered by the same list of areas. -/
theorem c14_azp (nb : Dict κ (List κ)) (attr lab : Dict κ Val) (s : Shape)
    (hne : nb.entries ≠ []) (hc : Closed nb) (ha : KeysAgree attr nb) (hl : KeysAgree lab nb)
    (hs : Uniform attr s) (hls : Uniform lab .scalars) :
    ∃ c names larr, azpFromDict nb attr (some lab) = .ok c ∧ Ascending names nb ∧
      Encodes c.adj names nb ∧ Tabulates c.attr attr names ∧ Tabulates larr lab names ∧
      c.labels = some (.flat (larr.flatten.map truncToInt)) := by
  obtain ⟨adj, h1, h2⟩ := sparseFromDict_eq hc
  have hne' : nb.sorted ≠ [] := by
    intro h0
    have := sorted_len nb
    rw [h0] at this
    exact hne (List.length_eq_zero_iff.1 this.symm)
  have hk : ∀ k ∈ nb.sorted, IsKey nb k := fun k hk => ((ascending_sorted nb).2 k).1 hk
  obtain ⟨arr, h3, h4⟩ := array_eq hs (keys := some nb.sorted) hne' (fun k h => (ha k).2 (hk k h))
    ((sorted_len nb).trans ha.len.symm)
  obtain ⟨larr, h5, -, h6⟩ := flat_eq (conv := truncToInt) hls (keys := some nb.sorted) hne'
    (fun k h => (hl k).2 (hk k h))
  refine ⟨⟨_, adj, arr, none, some (.flat (larr.flatten.map truncToInt))⟩, nb.sorted, larr, ?_,
    ascending_sorted nb, encodes_of h2, h4, h5, rfl⟩
  simp [azpFromDict, h1, h3, h6]

example : ∃ c names larr, azpFromDict pathDict attrDict (some labelDict) = .ok c ∧
    Ascending names pathDict ∧ Encodes c.adj names pathDict ∧ Tabulates c.attr attrDict names ∧
    Tabulates larr labelDict names ∧ c.labels = some (.flat (larr.flatten.map truncToInt)) :=
  c14_azp _ _ _ _ (by decide) (closed_of_check (by decide)) (keysAgree_of_keys (by decide))
    (keysAgree_of_keys (by decide)) attrDict_uniform labelDict_uniform

/-- `PRegionsExact.fit_from_dict`. -/
theorem c14_exact (nb : Dict κ (List κ)) (attr : Dict κ Val) (s : Shape)
    (hne : nb.entries ≠ []) (hc : Closed nb) (ha : KeysAgree attr nb) (hs : Uniform attr s) :
    ∃ c names, exactFromDict (some nb) (some attr) = .ok c ∧ Ascending names nb ∧
      Encodes c.adj names nb ∧ Tabulates c.attr attr names := by
  obtain ⟨adj, h1, h2⟩ := sparseFromDict_eq hc
  have hne' : attr.entries ≠ [] := by
    intro h0
    have := ha.len
    rw [Dict.len, h0] at this
    exact hne (List.length_eq_zero_iff.1 this.symm)
  obtain ⟨names, arr, h3, h4, h5⟩ := c12_default attr s hs hne'
  have h3' : Ascending names nb := ⟨h3.1, fun k => (h3.2 k).trans (ha k)⟩
  refine ⟨⟨_, adj, arr, none, none⟩, names, ?_, h3', ?_, h5⟩
  · simp [exactFromDict, sameKeys_iff.2 ha, h1, h4]
  · rw [h3'.eq (ascending_sorted nb)]
    exact encodes_of h2

example : ∃ c names, exactFromDict (some pathDict) (some attrDict) = .ok c ∧
    Ascending names pathDict ∧ Encodes c.adj names pathDict ∧ Tabulates c.attr attrDict names :=
  c14_exact _ _ _ (by decide) (closed_of_check (by decide)) (keysAgree_of_keys (by decide))
    attrDict_uniform

/-- `MaxPRegionsHeu.fit_from_dict` and `MaxPRegionsExact.fit_from_dict`. -/
theorem c14_maxp (shown : String) (nb : Dict κ (List κ)) (attr spat : Dict κ Val) (s t : Shape)
    (hne : nb.entries ≠ []) (hc : Closed nb) (ha : KeysAgree attr nb) (hp : KeysAgree spat nb)
    (hs : Uniform attr s) (ht : Uniform spat t) :
    ∃ c names sarr, maxpFromDict shown (some nb) (some attr) (some spat) = .ok c ∧
      Ascending names nb ∧ Encodes c.adj names nb ∧ Tabulates c.attr attr names ∧
      c.spat = some sarr ∧ Tabulates sarr spat names := by
  obtain ⟨adj, h1, h2⟩ := sparseFromDict_eq hc
  have hne' : ∀ d : Dict κ Val, KeysAgree d nb → d.entries ≠ [] := by
    intro d hd h0
    have := hd.len
    rw [Dict.len, h0] at this
    exact hne (List.length_eq_zero_iff.1 this.symm)
  obtain ⟨names, arr, h3, h4, h5⟩ := c12_default attr s hs (hne' _ ha)
  obtain ⟨names', sarr, h6, h7, h8⟩ := c12_default spat t ht (hne' _ hp)
  have h3' : Ascending names nb := ⟨h3.1, fun k => (h3.2 k).trans (ha k)⟩
  have h6' : Ascending names' nb := ⟨h6.1, fun k => (h6.2 k).trans (hp k)⟩
  refine ⟨⟨_, adj, arr, some sarr, none⟩, names, sarr, ?_, h3', ?_, h5, rfl, ?_⟩
  · simp [maxpFromDict, sameKeys_iff.2 ha, sameKeys_iff.2 hp, h1, h4, h7]
  · rw [h3'.eq (ascending_sorted nb)]
    exact encodes_of h2
  · rw [h3'.eq h6']
    exact h8

example : ∃ c names sarr, maxpFromDict "{}" (some pathDict) (some attrDict) (some labelDict) =
      .ok c ∧ Ascending names pathDict ∧ Encodes c.adj names pathDict ∧
      Tabulates c.attr attrDict names ∧ c.spat = some sarr ∧ Tabulates sarr labelDict names :=
  c14_maxp _ _ _ _ _ _ (by decide) (closed_of_check (by decide)) (keysAgree_of_keys (by decide))
    (keysAgree_of_keys (by decide)) attrDict_uniform labelDict_uniform

/-- The order in which the dicts were built makes no difference to any argument passed on, nor to
the exception raised. -/
theorem c14_insertion_order (nb nb' : Dict κ (List κ)) (attr attr' : Dict κ Val)
    (hn : SameItems nb nb') (ha : SameItems attr attr') :
    azpFromDict nb attr none = azpFromDict nb' attr' none ∧
    (∀ lab lab', SameItems lab lab' →
      azpFromDict nb attr (some lab) = azpFromDict nb' attr' (some lab')) ∧
    exactFromDict (some nb) (some attr) = exactFromDict (some nb') (some attr') ∧
    (∀ shown spat spat', SameItems spat spat' →
      maxpFromDict shown (some nb) (some attr) (some spat) =
        maxpFromDict shown (some nb') (some attr') (some spat')) := by
  have hk : ∀ {d d' : Dict κ Val}, SameItems d d' → d.sameKeys nb = d'.sameKeys nb' := by
    intro d d' h
    rw [Bool.eq_iff_iff, sameKeys_iff, sameKeys_iff]
    exact ⟨fun h1 k => ((h.keysAgree k).symm.trans (h1 k)).trans (hn.keysAgree k),
      fun h1 k => ((h.keysAgree k).trans (h1 k)).trans (hn.keysAgree k).symm⟩
  refine ⟨?_, fun lab lab' hl => ?_, ?_, fun shown spat spat' hs => ?_⟩
  · exact (sparse_congr hn fun names adj => do
      let attrArr ← arrayFromDictValues attr (some names)
      .ok (⟨_, adj, attrArr, none, none⟩ : SparseCall)).trans (by
        simp only [azpFromDict, array_congr ha])
  · exact (sparse_congr hn fun names adj => do
      let attrArr ← arrayFromDictValues attr (some names)
      let arr ← flatFromDictValues lab (some names) truncToInt
      .ok (⟨_, adj, attrArr, none, some (.flat arr)⟩ : SparseCall)).trans (by
        simp only [azpFromDict, array_congr ha, flat_congr hl])
  · simp only [exactFromDict, hk ha]
    refine if_congr Iff.rfl ?_ rfl
    exact (sparse_congr hn fun names adj => do
      let attrArr ← arrayFromDictValues attr none
      .ok (⟨_, adj, attrArr, none, none⟩ : SparseCall)).trans (by simp only [array_congr ha])
  · simp only [maxpFromDict, hk ha, hk hs]
    refine if_congr Iff.rfl (if_congr Iff.rfl ?_ rfl) rfl
    exact (sparse_congr hn fun names adj => do
      let attrArr ← arrayFromDictValues attr none
      let spatArr ← arrayFromDictValues spat none
      .ok (⟨_, adj, attrArr, some spatArr, none⟩ : SparseCall)).trans (by
        simp only [array_congr ha, array_congr hs])

theorem pathDict_same : SameItems pathDict pathDict' := by
  intro k v
  simp only [Item, pathDict, pathDict', List.mem_cons, List.not_mem_nil, or_false]
  tauto

theorem attrDict_same : SameItems attrDict attrDict' := by
  intro k v
  simp only [Item, attrDict, attrDict', List.mem_cons, List.not_mem_nil, or_false]
  tauto

example : azpFromDict pathDict attrDict none = azpFromDict pathDict' attrDict' none :=
  (c14_insertion_order _ _ _ _ pathDict_same attrDict_same).1

end Region.Props
