import Mathlib.Data.Fin.VecNotation
import Verif.Lemmas.Adapters

/-
Properties of option validation and of the data frame helpers.
-/
namespace Region.Props

open Spec

/-! ### C17: validation agrees with dispatch -/

/-- `check_solver` accepts exactly the strings `get_solver_instance` knows; everything else is a
`ValueError`. -/
theorem c17_solver (s : String) :
    (checkSolver (.str s) = .ok () ↔ ∃ c, getSolverInstance s = .ok c) ∧
    (checkSolver (.str s) ≠ .ok () → ∃ msg, checkSolver (.str s) = .raise (.valueError msg)) := by
  simp only [checkSolver, getSolverInstance]
  generalize s.toLower = t
  by_cases h : solverNames.contains t = true
  · refine ⟨⟨fun _ => ?_, fun _ => by rw [if_pos h]⟩, fun h' => absurd (if_pos h) h'⟩
    simp only [solverNames, List.contains_iff_mem, List.mem_cons, List.not_mem_nil, or_false] at h
    rcases h with rfl | rfl | rfl | rfl
    · exact ⟨.cbc, by decide +kernel⟩
    · exact ⟨.cplex, by decide +kernel⟩
    · exact ⟨.glpk, by decide +kernel⟩
    · exact ⟨.gurobi, by decide +kernel⟩
  · refine ⟨⟨fun h' => (by rw [if_neg h] at h'; cases h'), ?_⟩, fun _ => ⟨_, if_neg h⟩⟩
    rintro ⟨c, hc⟩
    refine absurd ?_ h
    simp only [solverTable, Dict.find] at hc
    simp only [solverNames, List.contains_iff_mem, List.mem_cons, List.not_mem_nil, or_false]
    by_contra hn
    simp only [not_or] at hn
    rw [if_neg (Ne.symm hn.1), if_neg (Ne.symm hn.2.1), if_neg (Ne.symm hn.2.2.1),
      if_neg (Ne.symm hn.2.2.2)] at hc
    cases hc

/-- The accepted names, in any letter case. -/
theorem c17_solver_names (s : String) : checkSolver (.str s) = .ok () ↔
    s.toLower = "cbc" ∨ s.toLower = "cplex" ∨ s.toLower = "glpk" ∨ s.toLower = "gurobi" := by
  simp only [checkSolver]
  by_cases h : solverNames.contains s.toLower = true
  · rw [if_pos h]
    simpa [solverNames] using h
  · rw [if_neg h]
    simp only [solverNames, List.contains_iff_mem, List.mem_cons, List.not_mem_nil,
      or_false] at h
    simpa using h

example : checkSolver (.str "GLPK") = .ok () ∧ getSolverInstance "GLPK" = .ok .glpk ∧
    checkSolver (.str "highs") ≠ .ok () := by decide +kernel

/-- `_check_method` accepts exactly the strings the dispatch table knows. -/
theorem c17_method (s : String) :
    (checkMethod (.str s) = .ok () ↔ ∃ m, getMethod s = .ok m) ∧
    (checkMethod (.str s) = .ok () ↔
      s.toLower = "flow" ∨ s.toLower = "order" ∨ s.toLower = "tree") ∧
    (checkMethod (.str s) ≠ .ok () → ∃ msg, checkMethod (.str s) = .raise (.valueError msg)) := by
  simp only [checkMethod, getMethod]
  generalize s.toLower = t
  by_cases h : ["flow", "order", "tree"].contains t = true
  · have h' := h
    simp only [List.contains_iff_mem, List.mem_cons, List.not_mem_nil, or_false] at h'
    refine ⟨⟨fun _ => ?_, fun _ => if_pos h⟩, ⟨fun _ => h', fun _ => if_pos h⟩,
      fun hh => absurd (if_pos h) hh⟩
    rcases h' with rfl | rfl | rfl
    · exact ⟨.flow, by decide +kernel⟩
    · exact ⟨.order, by decide +kernel⟩
    · exact ⟨.tree, by decide +kernel⟩
  · have hn := h
    simp only [List.contains_iff_mem, List.mem_cons, List.not_mem_nil, or_false, not_or] at hn
    refine ⟨⟨fun h' => (by rw [if_neg h] at h'; cases h'), ?_⟩,
      ⟨fun h' => (by rw [if_neg h] at h'; cases h'), fun h' => ?_⟩, fun _ => ⟨_, if_neg h⟩⟩
    · rintro ⟨c, hc⟩
      simp only [Dict.find] at hc
      rw [if_neg (Ne.symm hn.1), if_neg (Ne.symm hn.2.1), if_neg (Ne.symm hn.2.2)] at hc
      cases hc
    · rcases h' with h' | h' | h'
      · exact absurd h' hn.1
      · exact absurd h' hn.2.1
      · exact absurd h' hn.2.2

example : checkMethod (.str "Tree") = .ok () ∧ getMethod "Tree" = .ok .tree := by decide +kernel

/-- An argument that is not a string is rejected by both. -/
theorem c17_not_a_string : (∃ msg, checkSolver .other = .raise (.valueError msg)) ∧
    (∃ msg, checkMethod .other = .raise (.valueError msg)) := ⟨⟨_, rfl⟩, ⟨_, rfl⟩⟩

/-- The metric names of the documentation give the documented functions; a function is returned
unchanged.  (The rest of the property, that `None` means Euclidean, is false.) -/
theorem c17_metric_partial {φ : Type} (f : φ) :
    getMetricFunction (.func f) = .ok (.own f) ∧
    getMetricFunction (φ := φ) (.str "cityblock") = .ok (.sk .manhattan) ∧
    getMetricFunction (φ := φ) (.str "cosine") = .ok (.sk .cosine) ∧
    getMetricFunction (φ := φ) (.str "euclidean") = .ok (.sk .euclidean) ∧
    getMetricFunction (φ := φ) (.str "l1") = .ok (.sk .manhattan) ∧
    getMetricFunction (φ := φ) (.str "l2") = .ok (.sk .euclidean) ∧
    getMetricFunction (φ := φ) (.str "manhattan") = .ok (.sk .manhattan) := by
  refine ⟨rfl, ?_, ?_, ?_, ?_, ?_, ?_⟩ <;> rfl

/-- `None` is documented to mean "euclidean" but gives the Manhattan distance. -/
theorem c17_none_is_manhattan {φ : Type} :
    getMetricFunction (φ := φ) .none = .ok (.sk .manhattan) ∧
    getMetricFunction (φ := φ) .none ≠ getMetricFunction (.str "euclidean") := by
  refine ⟨rfl, ?_⟩
  intro h
  have : (Res.ok (MetricFn.sk SkMetric.manhattan) : Res (MetricFn φ)) =
      Res.ok (MetricFn.sk SkMetric.euclidean) := h
  cases this

/-- "precomputed" passes although there is no function behind it. -/
theorem c17_precomputed {φ : Type} :
    getMetricFunction (φ := φ) (.str "precomputed") = .ok .pyNone := rfl

/-- Unlike solver and method names, metric names are case sensitive. -/
theorem c17_metric_case_sensitive :
    (∃ msg, getMetricFunction (φ := Unit) (.str "Euclidean") = .raise (.valueError msg)) :=
  ⟨"Euclidean is not a known metric.", by decide +kernel⟩

/-! ### C81: `dataframe_to_dict` -/

/-- With distinct index labels every label maps to its own row, in the order of the rows. -/
theorem c81_items_partial {κ : Type} [DecidableEq κ] (df : Frame κ) (as : List String)
    (hidx : Function.Injective df.index) (hcols : ∀ a ∈ as, IsKey df.cols a) :
    ∃ cs, List.Forall₂ (fun c a => Item df.cols a c) cs as ∧
      dataframeToDict df (.names as) =
        .ok ((List.finRange df.height).map fun i => (df.index i, .seq (cs.map fun c => c i))) := by
  obtain ⟨cs, h1, h2⟩ := select_eq hcols
  refine ⟨cs, h2, ?_⟩
  simp only [dataframeToDict, h1, Res.bind_ok, dictItems]
  rw [foldl_insertItem]
  · rfl
  · rw [List.nil_append, List.map_map]
    exact (List.nodup_finRange _).map (f := Prod.fst ∘ fun i => (df.index i, _)) hidx

/-- A single column gives numbers. -/
theorem c81_column_partial {κ : Type} [DecidableEq κ] (df : Frame κ) (a : String)
    (c : Fin df.height → ℚ) (hidx : Function.Injective df.index) (hc : Item df.cols a c) :
    dataframeToDict df (.name a) =
      .ok ((List.finRange df.height).map fun i => (df.index i, .num (c i))) := by
  simp only [dataframeToDict, get_of_item hc, Res.bind_ok, dictItems]
  rw [foldl_insertItem]
  · rfl
  · rw [List.nil_append, List.map_map]
    exact (List.nodup_finRange _).map (f := Prod.fst ∘ fun i => (df.index i, _)) hidx

/-- In general the last row with a label wins. -/
theorem c81_last_wins {κ : Type} [DecidableEq κ] (df : Frame κ) (a : String)
    (c : Fin df.height → ℚ) (hc : Item df.cols a c) (i : Fin df.height)
    (hlast : ∀ j, i < j → df.index j ≠ df.index i) :
    ∃ items, dataframeToDict df (.name a) = .ok items ∧
      Dict.find (df.index i) items = .ok (.num (c i)) := by
  refine ⟨dictItems ((List.finRange df.height).map fun i => (df.index i, .num (c i))),
    by simp only [dataframeToDict, get_of_item hc, Res.bind_ok], ?_⟩
  obtain ⟨as, bs, hab⟩ := List.append_of_mem (List.mem_finRange i)
  have hs : (List.finRange df.height).Pairwise (· < ·) := List.pairwise_lt_finRange _
  rw [hab, List.map_append, List.map_cons]
  refine find_dictItems ?_
  rw [List.map_map, List.mem_map]
  rintro ⟨j, hj, hij⟩
  rw [hab, List.pairwise_append] at hs
  exact hlast j ((List.pairwise_cons.1 hs.2.1).1 j hj) hij

/-- Three rows; the index labels of the first and the last agree. -/
def dupFrame : Frame Nat := ⟨3, ![7, 8, 7], ⟨[("v", ![1, 2, 3])], by simp⟩⟩

/-- Three rows with distinct labels. -/
def goodFrame : Frame Nat := ⟨3, ![7, 9, 8], ⟨[("v", ![1, 2, 3]), ("w", ![4, 5, 6])], by decide⟩⟩

example : ∃ cs, List.Forall₂ (fun c a => Item goodFrame.cols a c) cs ["w", "v"] ∧
    dataframeToDict goodFrame (.names ["w", "v"]) =
      .ok ((List.finRange goodFrame.height).map fun i =>
        (goodFrame.index i, .seq (cs.map fun c => c i))) :=
  c81_items_partial goodFrame ["w", "v"] (by
    have : ∀ i j : Fin 3, (![7, 9, 8] : Fin 3 → Nat) i = (![7, 9, 8] : Fin 3 → Nat) j → i = j := by
      decide
    exact this) (by
    intro a ha
    rw [isKey_iff]
    simp only [List.mem_cons, List.not_mem_nil, or_false] at ha
    rcases ha with rfl | rfl <;> decide)

example : dataframeToDict goodFrame (.name "v") = .ok [(7, .num 1), (9, .num 2), (8, .num 3)] := by
  decide +kernel

example : dataframeToDict goodFrame (.name "w") =
    .ok ((List.finRange 3).map fun i => (goodFrame.index i, .num ((![4, 5, 6] : Fin 3 → ℚ) i))) :=
  c81_column_partial goodFrame "w" ![4, 5, 6] (by
    have : ∀ i j : Fin 3, (![7, 9, 8] : Fin 3 → Nat) i = (![7, 9, 8] : Fin 3 → Nat) j → i = j := by
      decide
    exact this) (List.mem_cons_of_mem _ (List.mem_cons_self ..))

example : ∃ items, dataframeToDict dupFrame (.name "v") = .ok items ∧
    Dict.find 8 items = .ok (.num 2) :=
  c81_last_wins dupFrame "v" ![1, 2, 3] (List.mem_cons_self ..) (1 : Fin 3) (by
    have : ∀ j : Fin 3, 1 < j → (![7, 8, 7] : Fin 3 → Nat) j ≠ (![7, 8, 7] : Fin 3 → Nat) 1 := by
      decide
    exact this)

/-- Duplicate index labels lose rows without a word. -/
theorem c81_rows_lost : dataframeToDict dupFrame (.name "v") = .ok [(7, .num 3), (8, .num 2)] := by
  decide +kernel

/-! ### C82: `array_from_df_col` -/

/-- Row `i` holds the `i`-th value of every selected column, in the order they were named. -/
theorem c82_rows {κ : Type} (df : Frame κ) (as : List String)
    (hcols : ∀ a ∈ as, IsKey df.cols a) :
    ∃ arr, arrayFromDfCol df (.names as) = .ok arr ∧ arr.length = df.height ∧
      ∀ (i : Fin df.height) (r : List ℚ), arr[i.val]? = some r →
        List.Forall₂ (fun q a => ∃ c, Item df.cols a c ∧ c i = q) r as := by
  obtain ⟨cs, h1, h2⟩ := select_eq hcols
  refine ⟨rowsOf cs, by simp only [arrayFromDfCol, h1, Res.bind_ok], by simp [rowsOf], ?_⟩
  intro i r hr
  have : r = cs.map fun c => c i := by
    obtain ⟨_, rfl⟩ := List.getElem?_eq_some_iff.1 hr
    simp [rowsOf]
  subst this
  rw [List.forall₂_map_left_iff]
  exact h2.imp fun c a h => ⟨c, h, rfl⟩

example : ∃ arr, arrayFromDfCol goodFrame (.names ["w", "v"]) = .ok arr ∧
    arr.length = goodFrame.height ∧ ∀ (i : Fin goodFrame.height) (r : List ℚ),
      arr[i.val]? = some r →
        List.Forall₂ (fun q a => ∃ c, Item goodFrame.cols a c ∧ c i = q) r ["w", "v"] :=
  c82_rows goodFrame ["w", "v"] (by
    intro a ha
    rw [isKey_iff]
    simp only [List.mem_cons, List.not_mem_nil, or_false] at ha
    rcases ha with rfl | rfl <;> decide)

/-- A name stands for the list holding it; an unknown column raises `KeyError`; anything but a
string or a sequence of strings raises `ValueError`. -/
theorem c82_errors {κ : Type} (df : Frame κ) :
    (∀ a, arrayFromDfCol df (.name a) = arrayFromDfCol df (.names [a])) ∧
    (∀ as, (∃ a ∈ as, ¬ IsKey df.cols a) →
      arrayFromDfCol df (.names as) = .raise .keyError) ∧
    (∃ msg, arrayFromDfCol df .mixed = .raise (.valueError msg)) ∧
    (∃ msg, arrayFromDfCol df .other = .raise (.valueError msg)) := by
  refine ⟨fun _ => rfl, fun as h => ?_, ⟨_, rfl⟩, ⟨_, rfl⟩⟩
  simp only [arrayFromDfCol, select_raise h, Res.bind_raise]

example : arrayFromDfCol goodFrame (.names ["v", "u"]) = .raise .keyError :=
  (c82_errors goodFrame).2.1 _ ⟨"u", by decide, by rw [isKey_iff]; decide⟩

/-! ### C83: `w_from_gdf` -/

/-- Rook and queen are accepted in any letter case and mean what they say; everything else is a
`ValueError`. -/
theorem c83_contiguity (s : String) :
    (wFromGdf (.str s) = .ok .rook ↔ s.toLower = "rook") ∧
    (wFromGdf (.str s) = .ok .queen ↔ s.toLower = "queen") ∧
    ((∃ msg, wFromGdf (.str s) = .raise (.valueError msg)) ↔
      s.toLower ≠ "rook" ∧ s.toLower ≠ "queen") ∧
    (∃ msg, wFromGdf .other = .raise (.valueError msg)) := by
  simp only [wFromGdf]
  generalize s.toLower = t
  have hne : ("queen" : String) ≠ "rook" := by decide
  by_cases h1 : t = "rook"
  · subst h1
    simp
  · by_cases h2 : t = "queen"
    · subst h2
      simp
    · simp [h1, h2]

example : wFromGdf (.str "Queen") = .ok .queen := by decide +kernel

/-- The message offers `None`, which is rejected. -/
theorem c83_none_rejected : ¬ ∃ c, wFromGdf .other = .ok c := by
  rintro ⟨c, h⟩
  cases h

end Region.Props
