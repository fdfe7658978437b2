import Verif.Props.Adapters

/-
Properties of `fit_from_networkx`, and of the validation done by `fit_from_dict`.
-/
namespace Region.Props

open Spec

variable {κ : Type} [LinearOrder κ]

/-! ### Example data -/

/-- A path 0 - 1 - 2 with the attributes "x" and "y" on every node. -/
def sortedPath : Graph Nat where
  nodes := [0, 1, 2]
  nodup := by decide
  edge := fun i j => i + 1 == j || j + 1 == i
  attrs := fun k a => if a = "x" then some (k * 10) else if a = "y" then some (k * k) else none

/-- The same graph with its nodes added in the order 0, 2, 1. -/
def shuffledPath : Graph Nat := { sortedPath with nodes := [0, 2, 1], nodup := by decide }

theorem complete_of_check {g : Graph Nat} {as : List String}
    (h : (g.nodes.all fun k => as.all fun a => (g.attrs k a).isSome) = true) : Complete g as :=
  fun k hk a ha => List.all_eq_true.1 (List.all_eq_true.1 h k hk) a ha

/-! ### C15: `fit_from_networkx` -/

/-- In general, matrix rows follow the insertion order of the nodes while attribute rows follow
the ascending order of the nodes. -/
theorem c15_rows (g : Graph κ) (as : List String) (hne : g.nodes ≠ []) (h : Complete g as) :
    ∃ c names, azpFromNetworkx g (.names as) none = .ok c ∧ EncodesGraph c.adj g.nodes g ∧
      names.Pairwise (· < ·) ∧ names.Perm g.nodes ∧ NodeRows g as c.attr names := by
  obtain ⟨adj, h1, h2⟩ := sparse_encodes hne
  obtain ⟨arr, h3, h4⟩ := arrayOfNames hne h
  refine ⟨⟨_, adj, arr, none, none⟩, g.nodes.insertionSort (· ≤ ·), ?_, h2, ?_,
    List.perm_insertionSort _ _, h4⟩
  · simp [azpFromNetworkx, arrayFromGraphOrDict, arrayFromGraph, dictFromGraphAttr, h1, h3]
  · have := (ascending_sorted (dictOfNames g as)).1
    rwa [Dict.sorted, dictOfNames_keys] at this

example : ∃ c names, azpFromNetworkx shuffledPath (.names ["x", "y"]) none = .ok c ∧
    EncodesGraph c.adj shuffledPath.nodes shuffledPath ∧ names.Pairwise (· < ·) ∧
    names.Perm shuffledPath.nodes ∧ NodeRows shuffledPath ["x", "y"] c.attr names :=
  c15_rows _ _ (by decide) (complete_of_check (by decide))

/-- When the nodes were added in ascending order, row `i` of the matrix and row `i` of the
attribute array belong to the same node.  The property asks for this whatever the order. -/
theorem c15_aligned_partial (g : Graph κ) (as : List String) (hne : g.nodes ≠ [])
    (h : Complete g as) (hs : g.nodes.Pairwise (· < ·)) :
    ∃ c, azpFromNetworkx g (.names as) none = .ok c ∧ EncodesGraph c.adj g.nodes g ∧
      NodeRows g as c.attr g.nodes := by
  obtain ⟨c, names, h1, h2, h3, h4, h5⟩ := c15_rows g as hne h
  have := h4.eq_of_pairwise (fun a b _ _ h1 h2 => absurd h1 (lt_asymm h2)) h3 hs
  subst this
  exact ⟨c, h1, h2, h5⟩

example : ∃ c, azpFromNetworkx sortedPath (.names ["x", "y"]) none = .ok c ∧
    EncodesGraph c.adj sortedPath.nodes sortedPath ∧
    NodeRows sortedPath ["x", "y"] c.attr sortedPath.nodes :=
  c15_aligned_partial _ _ (by decide) (complete_of_check (by decide)) (by decide)

/-- For every other insertion order the rows are mixed up, whenever the attribute tells the nodes
apart. -/
theorem c15_every_other_order (g : Graph κ) (a : String) (hne : g.nodes ≠ [])
    (h : Complete g [a]) (hs : ¬ g.nodes.Pairwise (· < ·))
    (hinj : ∀ k ∈ g.nodes, ∀ k' ∈ g.nodes, g.attrs k a = g.attrs k' a → k = k') :
    ∃ c, azpFromNetworkx g (.name a) none = .ok c ∧ EncodesGraph c.adj g.nodes g ∧
      ¬ NodeRows g [a] c.attr g.nodes := by
  obtain ⟨c, names, h1, h2, h3, h4, h5⟩ := c15_rows g [a] hne h
  refine ⟨c, h1, h2, fun h6 => hs ?_⟩
  have key : ∀ (arr : List (List ℚ)) (ks ks' : List κ), (∀ k ∈ ks, k ∈ g.nodes) →
      (∀ k ∈ ks', k ∈ g.nodes) → NodeRows g [a] arr ks → NodeRows g [a] arr ks' → ks = ks' := by
    intro arr
    induction arr with
    | nil =>
      intro ks ks' _ _ h h'
      cases h
      cases h'
      rfl
    | cons r arr ih =>
      intro ks ks' hk hk' h h'
      cases h with
      | cons h1 h2 =>
        cases h' with
        | cons h1' h2' =>
          rename_i k l k' l'
          have hkk : k = k' := by
            cases h1 with
            | cons e1 _ =>
              cases h1' with
              | cons e1' _ =>
                exact hinj _ (hk _ (List.mem_cons_self ..)) _ (hk' _ (List.mem_cons_self ..))
                  (e1.trans e1'.symm)
          rw [hkk, ih _ _ (fun x hx => hk x (List.mem_cons_of_mem _ hx))
            (fun x hx => hk' x (List.mem_cons_of_mem _ hx)) h2 h2']
  have := key _ _ _ (fun k hk => h4.mem_iff.1 hk) (fun k hk => hk) h5 h6
  rw [← this]
  exact h3

example : ∃ c, azpFromNetworkx shuffledPath (.name "x") none = .ok c ∧
    EncodesGraph c.adj shuffledPath.nodes shuffledPath ∧
    ¬ NodeRows shuffledPath ["x"] c.attr shuffledPath.nodes :=
  c15_every_other_order _ _ (by decide) (complete_of_check (by decide)) (by decide)
    (by decide +kernel)

/-- The distance between rows used in the examples. -/
def rowDist (x y : List ℚ) : ℚ := ((List.zipWith (fun a b => |a - b|) x y)).sum

/-- A path "0 - 2 - 1" with nodes added along the path.  Node 1 is the outlier. -/
def outlier : Graph Nat where
  nodes := [0, 2, 1]
  nodup := by decide
  edge := fun i j => (i == 0 && j == 2) || (i == 2 && j == 0) || (i == 2 && j == 1) || (i == 1 && j == 2)
  attrs := fun k a => if a = "x" then some (if k = 1 then 100 else 0) else none

/-- The same path as a dict. -/
def outlierDict : Dict Nat (List Nat) := ⟨[(0, [2]), (2, [0, 1]), (1, [2])], by decide⟩

/-- The same attributes as a dict. -/
def outlierAttr : Dict Nat Val := ⟨[(0, .num 0), (2, .num 0), (1, .num 100)], by decide⟩

/-- The same map, the same attributes and the same random draws: through `fit_from_dict` (labels
for 0, 1, 2) the two equal areas 0 and 2 end up together, through `fit_from_networkx` (labels for
0, 2, 1) area 2 is put with the outlier. -/
theorem c15_wrong_regions :
    (azpFromDict outlierDict outlierAttr none >>= fun c =>
      c.azp .rowMajor (fun x => x) (pairwise rowDist) 50 2 (fun _ => 0)) = .ok [0, 1, 0] ∧
    (azpFromNetworkx outlier (.name "x") none >>= fun c =>
      c.azp .rowMajor (fun x => x) (pairwise rowDist) 50 2 (fun _ => 0)) = .ok [0, 1, 1] := by
  decide +kernel

/-- `MaxPRegions*.fit_from_networkx`: both arrays follow the ascending order of the nodes, the
matrix their insertion order. -/
theorem c15_maxp_rows (g : Graph κ) (as bs : List String) (hne : g.nodes ≠ [])
    (ha : Complete g as) (hb : Complete g bs) :
    ∃ c names sarr, maxpFromNetworkx g (.names as) (.names bs) = .ok c ∧
      EncodesGraph c.adj g.nodes g ∧ names.Pairwise (· < ·) ∧ names.Perm g.nodes ∧
      NodeRows g as c.attr names ∧ c.spat = some sarr ∧ NodeRows g bs sarr names := by
  obtain ⟨adj, h1, h2⟩ := sparse_encodes hne
  obtain ⟨arr, h3, h4⟩ := arrayOfNames hne ha
  obtain ⟨sarr, h5, h6⟩ := arrayOfNames hne hb
  refine ⟨⟨_, adj, arr, some sarr, none⟩, g.nodes.insertionSort (· ≤ ·), sarr, ?_, h2, ?_,
    List.perm_insertionSort _ _, h4, rfl, h6⟩
  · simp [maxpFromNetworkx, arrayFromGraphOrDict, arrayFromGraph, dictFromGraphAttr, h1, h3, h5]
  · have := (ascending_sorted (dictOfNames g as)).1
    rwa [Dict.sorted, dictOfNames_keys] at this

example : ∃ c names sarr, maxpFromNetworkx shuffledPath (.names ["x"]) (.names ["y"]) = .ok c ∧
    EncodesGraph c.adj shuffledPath.nodes shuffledPath ∧ names.Pairwise (· < ·) ∧
    names.Perm shuffledPath.nodes ∧ NodeRows shuffledPath ["x"] c.attr names ∧
    c.spat = some sarr ∧ NodeRows shuffledPath ["y"] sarr names :=
  c15_maxp_rows _ _ _ (by decide) (complete_of_check (by decide)) (complete_of_check (by decide))

/-! ### C77: nodes lacking an attribute -/

/-- One attribute that some nodes have and others lack is rejected. -/
theorem c77_single_partial (g : Graph κ) (a : String) (h1 : ∃ k ∈ g.nodes, (g.attrs k a).isSome)
    (h2 : ∃ k ∈ g.nodes, g.attrs k a = none) :
    arrayFromGraphOrDict g (.name a) = .raise (.valueError "cannot reshape array") := by
  have hperm : (dictOfNames g [a]).sorted.Perm g.nodes := by
    have := sorted_perm (dictOfNames g [a])
    rwa [dictOfNames_keys] at this
  have hlen : (dictOfNames g [a]).len = g.nodes.length := by
    rw [← Dict.len_keys, dictOfNames_keys]
  have hchain : ∀ ks : List κ, (∀ k ∈ ks, k ∈ g.nodes) →
      chainValues (dictOfNames g [a]) (id : ℚ → ℚ) ks =
        .ok (ks.flatMap fun k => (g.attrs k a).toList) := by
    intro ks
    induction ks with
    | nil => simp [chainValues]
    | cons k ks ih =>
      intro hk
      have hi : Item (dictOfNames g [a]) k (.seq ((g.attrs k a).toList)) := by
        rw [dictOfNames_item]
        refine ⟨hk k (List.mem_cons_self ..), ?_⟩
        cases h : g.attrs k a <;> simp [h]
      simp [chainValues, get_of_item hi, ih fun k' hk' => hk k' (List.mem_cons_of_mem _ hk')]
  have hcount : ∀ ks : List κ, (ks.flatMap fun k => (g.attrs k a).toList).length ≤ ks.length ∧
      ((∃ k ∈ ks, (g.attrs k a).isSome) →
        0 < (ks.flatMap fun k => (g.attrs k a).toList).length) ∧
      ((∃ k ∈ ks, g.attrs k a = none) →
        (ks.flatMap fun k => (g.attrs k a).toList).length < ks.length) := by
    intro ks
    induction ks with
    | nil => simp
    | cons k ks ih =>
      rw [List.flatMap_cons, List.length_append, List.length_cons]
      obtain ⟨i1, i2, i3⟩ := ih
      generalize (ks.flatMap fun k => (g.attrs k a).toList).length = m at i1 i2 i3 ⊢
      cases h : g.attrs k a with
      | none =>
        rw [Option.toList_none, List.length_nil]
        refine ⟨by omega, ?_, fun _ => by omega⟩
        rintro ⟨k', hk', h'⟩
        rcases List.mem_cons.1 hk' with rfl | hk'
        · rw [h] at h'
          cases h'
        · have := i2 ⟨k', hk', h'⟩
          omega
      | some v =>
        rw [Option.toList_some, List.length_singleton]
        refine ⟨by omega, fun _ => by omega, ?_⟩
        rintro ⟨k', hk', h'⟩
        rcases List.mem_cons.1 hk' with rfl | hk'
        · rw [h] at h'
          cases h'
        · have := i3 ⟨k', hk', h'⟩
          omega
  have hmem : ∀ k ∈ (dictOfNames g [a]).sorted, k ∈ g.nodes := fun k hk => hperm.mem_iff.1 hk
  obtain ⟨c1, c2, c3⟩ := hcount (dictOfNames g [a]).sorted
  have hflat : flatFromDictValues (dictOfNames g [a]) none (id : ℚ → ℚ) =
      .ok ((dictOfNames g [a]).sorted.flatMap fun k => (g.attrs k a).toList) := by
    unfold flatFromDictValues
    rw [Option.getD_none]
    match hS : (dictOfNames g [a]).sorted with
    | [] =>
      obtain ⟨k, hk, -⟩ := h1
      rw [← hperm.mem_iff, hS] at hk
      simp at hk
    | k :: ks =>
      have hk : k ∈ g.nodes := hmem k (by rw [hS]; exact List.mem_cons_self ..)
      have hi : Item (dictOfNames g [a]) k (.seq ([a].filterMap (g.attrs k))) :=
        dictOfNames_item.2 ⟨hk, rfl⟩
      simp only [get_of_item hi, Res.bind_ok]
      rw [← hS]
      exact hchain _ hmem
  have hpos := c2 (by
    obtain ⟨k, hk, h⟩ := h1
    exact ⟨k, hperm.mem_iff.2 hk, h⟩)
  have hlt := c3 (by
    obtain ⟨k, hk, h⟩ := h2
    exact ⟨k, hperm.mem_iff.2 hk, h⟩)
  rw [hperm.length_eq] at hlt
  simp only [arrayFromGraphOrDict, arrayFromGraph, dictFromGraphAttr, arrayFromDictValues,
    Res.bind_ok, hflat, hlen]
  unfold reshapeRows
  rw [if_neg (by omega), if_neg]
  rw [Nat.mod_eq_of_lt hlt]
  omega

/-- Node 1 lacks the attribute. -/
def holed : Graph Nat where
  nodes := [0, 1]
  nodup := by decide
  edge := fun i j => i != j
  attrs := fun k a => if k = 0 then (if a = "x" then some 3 else some 4) else none

example : arrayFromGraphOrDict holed (.name "x") = .raise (.valueError "cannot reshape array") :=
  c77_single_partial _ _ ⟨0, by decide, by decide⟩ ⟨1, by decide, by decide⟩

/-- With two attributes the hole goes unnoticed: node 0's second attribute becomes node 1's
row. -/
theorem c77_hole_filled :
    arrayFromGraphOrDict holed (.names ["x", "y"]) = .ok [[3], [4]] ∧
    (∀ a, holed.attrs 1 a = none) := by
  refine ⟨by decide +kernel, fun a => rfl⟩

/-- An attribute no node has (say, a misspelt name) gives an array without columns. -/
theorem c77_unknown_attribute :
    arrayFromGraphOrDict sortedPath (.name "z") = .ok [[], [], []] := by decide +kernel

/-! ### C78: `fit_from_dict` rejects data for other areas -/

/-- The exact models reject an attribute dict whose keys are not those of the neighbor dict. -/
theorem c78_exact (nb : Dict κ (List κ)) (attr : Dict κ Val) (h : ¬ KeysAgree attr nb) :
    exactFromDict (some nb) (some attr) = .raise (.valueError (sameKeysMsg "attr")) := by
  have : attr.sameKeys nb = false := by
    rw [← Bool.not_eq_true, sameKeys_iff]
    exact h
  simp [exactFromDict, this]

/-- So do the max-p classes, for both dicts. -/
theorem c78_maxp (shown : String) (nb : Dict κ (List κ)) (attr spat : Dict κ Val)
    (h : ¬ KeysAgree attr nb ∨ ¬ KeysAgree spat nb) :
    ∃ msg, maxpFromDict shown (some nb) (some attr) (some spat) = .raise (.valueError msg) := by
  by_cases ha : KeysAgree attr nb
  · have hs : spat.sameKeys nb = false := by
      rw [← Bool.not_eq_true, sameKeys_iff]
      exact h.resolve_left fun h' => h' ha
    exact ⟨_, by simp [maxpFromDict, sameKeys_iff.2 ha, hs]; rfl⟩
  · have hs : attr.sameKeys nb = false := by
      rw [← Bool.not_eq_true, sameKeys_iff]
      exact ha
    exact ⟨_, by simp [maxpFromDict, hs]; rfl⟩

/-- Attributes for four areas. -/
def fourAttr : Dict Nat Val :=
  ⟨[(0, .seq [1, 2]), (1, .seq [3, 4]), (2, .seq [5, 6]), (3, .seq [7, 8])], by decide⟩

theorem fourAttr_uniform : Uniform fourAttr (.wide 2) := by
  intro k v hv
  simp only [Item, fourAttr, List.mem_cons, Prod.mk.injEq, List.not_mem_nil, or_false] at hv
  rcases hv with ⟨-, rfl⟩ | ⟨-, rfl⟩ | ⟨-, rfl⟩ | ⟨-, rfl⟩ <;> rfl

/-- Two areas. -/
def twoAreas : Dict Nat (List Nat) := ⟨[(0, [1]), (1, [0])], by decide⟩

example : exactFromDict (some twoAreas) (some fourAttr) =
    .raise (.valueError (sameKeysMsg "attr")) :=
  c78_exact _ _ fun h => by
    have := (h 3).1 (isKey_iff.2 (by decide))
    exact absurd (isKey_iff.1 this) (by decide)

example : ∃ msg, maxpFromDict "{}" (some twoAreas) (some fourAttr) (some fourAttr) =
    .raise (.valueError msg) :=
  c78_maxp _ _ _ _ (.inl fun h => by
    have := (h 3).1 (isKey_iff.2 (by decide))
    exact absurd (isKey_iff.1 this) (by decide))

/-- `AZP.fit_from_dict` does not check; an attribute missing for an area raises `KeyError`. -/
theorem c78_azp_missing_partial (nb : Dict κ (List κ)) (attr : Dict κ Val) (s : Shape)
    (hu : Uniform attr s) (hc : Closed nb) (lab : Option (Dict κ Val))
    (h : ∃ k, IsKey nb k ∧ ¬ IsKey attr k) :
    azpFromDict nb attr lab = .raise .keyError := by
  obtain ⟨adj, h1, -⟩ := sparseFromDict_eq hc
  obtain ⟨k, hk, hk'⟩ := h
  have h2 := (c12_missing attr s hu nb.sorted).1 ⟨k, ((ascending_sorted nb).2 k).2 hk, hk'⟩
  simp [azpFromDict, h1, h2]

example : azpFromDict pathDict (⟨[(0, .num 1), (2, .num 1)], by decide⟩ : Dict Nat Val) none =
    .raise .keyError :=
  c78_azp_missing_partial _ _ .scalars (by
    intro k v hv
    simp only [Item, List.mem_cons, Prod.mk.injEq, List.not_mem_nil, or_false] at hv
    rcases hv with ⟨-, rfl⟩ | ⟨-, rfl⟩ <;> trivial) (closed_of_check (by decide)) _
    ⟨1, by simp [isKey_iff, pathDict, Dict.keys], by simp [isKey_iff, Dict.keys]⟩

/-- Attributes for more areas than the map has never give the right array: the call raises, or
the rows belong to no area. -/
theorem c78_azp_extra (nb : Dict κ (List κ)) (attr : Dict κ Val) (lab : Option (Dict κ Val))
    (hlen : nb.len < attr.len) (c : SparseCall)
    (h : azpFromDict nb attr lab = .ok c) (names : List κ) (hn : Ascending names nb) :
    ¬ Tabulates c.attr attr names := by
  intro ht
  have hrows : c.attr.length = attr.len := by
    unfold azpFromDict at h
    obtain ⟨adj, -, h⟩ := Res.bind_eq_ok.1 h
    obtain ⟨arr, h1, h⟩ := Res.bind_eq_ok.1 h
    obtain ⟨flat, -, h2⟩ := Res.bind_eq_ok.1 h1
    have harr : c.attr = arr := by
      cases lab with
      | none => cases h; rfl
      | some l =>
        obtain ⟨la, -, h⟩ := Res.bind_eq_ok.1 h
        cases h
        rfl
    rw [harr, reshapeRows_length h2]
  have h3 := ht.length
  rw [hn.eq (ascending_sorted nb), sorted_len] at h3
  omega

/-- And it happens silently: both areas get wrong attributes. -/
theorem c78_azp_extra_silent :
    (azpFromDict twoAreas fourAttr none >>= fun c => .ok c.attr) = .ok [[1], [2], [3], [4]] := by
  decide +kernel

example : ∃ c, azpFromDict twoAreas fourAttr none = .ok c ∧
    ¬ Tabulates c.attr fourAttr twoAreas.sorted := by
  obtain ⟨c, h, -⟩ := Res.bind_eq_ok.1 c78_azp_extra_silent
  exact ⟨c, h, c78_azp_extra _ _ _ (by decide) c h _ (ascending_sorted _)⟩

/-! ### C79: the message names the offending argument -/

/-- A bad `attr` is named. -/
theorem c79_attr_named (nb : Dict κ (List κ)) (shown : String) (spat : Option (Dict κ Val)) :
    exactFromDict (some nb) none = .raise (.valueError
      "The attr argument has to be of type dict with the same keys as neighbors_dict.") ∧
    maxpFromDict shown (some nb) none spat = .raise (.valueError
      "The attr argument has to be of type dict with the same keys as neighbors_dict.") := by
  constructor <;> rfl

/-- A bad `spatially_extensive_attr` is not: the message shows the argument itself where its name
should be, here the dict `{0: 1}` passed for the areas 0 and 1. -/
theorem c79_spat_not_named :
    maxpFromDict "{0: 1}" (some twoAreas)
      (some (⟨[(0, .num 1), (1, .num 2)], by decide⟩ : Dict Nat Val))
      (some ⟨[(0, .num 1)], by decide⟩) = .raise (.valueError
        "The {0: 1} argument has to be of type dict with the same keys as neighbors_dict.") := by
  have h1 : (⟨[(0, .num 1), (1, .num 2)], by decide⟩ : Dict Nat Val).sameKeys twoAreas = true := by
    decide
  have h2 : (⟨[(0, .num 1)], by decide⟩ : Dict Nat Val).sameKeys twoAreas = false := by decide
  simp [maxpFromDict, h1, h2]
  decide

/-! ### C80: initial labels through networkx -/

/-- `AZP.fit_from_networkx` with initial labels never succeeds: the labels become an array with
two axes, on which `set(solution)` raises `TypeError`. -/
theorem c80_always_type_error (g : Graph κ) (attr lab : GraphAttr κ) (c : SparseCall)
    (h : azpFromNetworkx g attr (some lab) = .ok c) (o : MstOrder) (expf : ℚ → ℚ)
    (obj : Objective (List ℚ)) (fuel : Nat) (p : Int) (rng : Rng) :
    c.azp o expf obj fuel p rng = .raise .typeError := by
  have : ∃ arr, c.labels = some (.rows arr) := by
    unfold azpFromNetworkx at h
    obtain ⟨adj, -, h⟩ := Res.bind_eq_ok.1 h
    obtain ⟨arr, -, h⟩ := Res.bind_eq_ok.1 h
    obtain ⟨larr, -, h⟩ := Res.bind_eq_ok.1 h
    cases h
    exact ⟨larr, rfl⟩
  obtain ⟨arr, ha⟩ := this
  simp [SparseCall.azp, ha, labelsFor]

/-- Witness: the labels are feasible and `fit_from_dict` accepts them. -/
theorem c80_dict_accepts :
    (azpFromDict outlierDict outlierAttr
        (some ⟨[(0, .num 0), (1, .num 1), (2, .num 0)], by decide⟩) >>= fun c =>
      c.azp .rowMajor (fun x => x) (pairwise rowDist) 50 2 (fun _ => 0)) = .ok [0, 1, 0] ∧
    (azpFromNetworkx outlier (.name "x")
        (some (.dict ⟨[(0, .num 0), (1, .num 1), (2, .num 0)], by decide⟩)) >>= fun c =>
      c.azp .rowMajor (fun x => x) (pairwise rowDist) 50 2 (fun _ => 0)) = .raise .typeError := by
  decide +kernel

end Region.Props
