import Mathlib.Data.List.Perm.Subperm
import Mathlib.Data.Fin.VecNotation
import Verif.Lemmas.TestUtil
import Verif.SpecNames
/-
Property theorem C126: the functions with which the tests of the library look at results.
-/
namespace Region.Props

open Region Spec

/-! ### C126 -/

section
variable {n : Nat}

/-- C126: `region_list_from_array` returns the regions of the clustering as sets of areas, each once, in
the order of their smallest areas. -/
theorem c126_region_list (labels : Labels n) :
    ∃ out, regionListFromArray labels = .ok out ∧ out.Nodup ∧
      (∀ s, s ∈ out ↔ ∃ i, ∀ j, j ∈ s ↔ labels j = labels i) ∧
      out.Pairwise fun s t => ∃ a ∈ s, ∀ b ∈ t, a < b := by
  obtain ⟨out, idx, cur, keys, h1, h2⟩ := regionListLoop_post (labels := labels) (List.finRange n) []
    (fun _ => none) 0 [] [] ⟨by simp, by simp, rfl, by simp, rfl, by simp⟩
    (by simpa using List.pairwise_lt_finRange n)
  rw [List.nil_append] at h2
  have hmem : ∀ s, s ∈ out ↔ ∃ i, ∀ j, j ∈ s ↔ labels j = labels i := by
    intro s
    rw [h2.regions_eq, List.mem_map]
    constructor
    · rintro ⟨r, hr, rfl⟩
      obtain ⟨i, -, rfl⟩ := (h2.mem r).1 hr
      exact ⟨i, fun j => by simp [mem_soFar]⟩
    · rintro ⟨i, hi⟩
      exact ⟨labels i, (h2.mem _).2 ⟨i, by simp, rfl⟩, by ext j; simp [mem_soFar, hi]⟩
  have hord : out.Pairwise fun s t => ∃ a ∈ s, ∀ b ∈ t, a < b := by
    rw [h2.regions_eq, List.pairwise_map]
    refine h2.order.imp ?_
    rintro r s ⟨a, ha, har, hb⟩
    exact ⟨a, mem_soFar.2 ⟨ha, har⟩, fun b hb' => hb b (mem_soFar.1 hb').1 (mem_soFar.1 hb').2⟩
  refine ⟨out, h1, hord.imp_of_mem ?_, hmem, hord⟩
  rintro s t - ht ⟨a, ha, hb⟩ rfl
  exact lt_irrefl _ (hb a ha)

/-- The example of the docstring. -/
example : (match regionListFromArray (![0, 0, 0, 1, 1, 0, 1, 1, 1] : Labels 9) with
    | .ok out => out
    | _ => []) = [{0, 1, 2, 5}, {3, 4, 6, 7, 8}] := by decide +kernel

example : (match regionListFromArray (![7, 3, 7, -1] : Labels 4) with
    | .ok out => out
    | _ => []) = [{0, 2}, {1}, {3}] := by decide +kernel

/-- C126 (part): if no region is listed twice among the actual ones, `compare_region_lists` accepts exactly
the lists with the same regions.  Missing: lists with repetitions, see `c126_repetition_accepted`. -/
theorem c126_compare_partial {actual desired : List (Finset (Fin n))} (h : actual.Nodup) :
    compareRegionLists actual desired = .ok () ↔ actual.Perm desired := by
  unfold compareRegionLists
  split_ifs with h1 h2
  · simp only [true_iff]
    refine (List.subperm_of_subset h ?_).perm_of_length_le h1.ge
    intro s hs
    simpa using List.all_eq_true.1 h2 s hs
  · simp only [false_iff]
    intro hp
    exact h2 (List.all_eq_true.2 fun s hs => by simpa using hp.subset hs)
  · simp only [false_iff]
    exact fun hp => h1 hp.length_eq

/-- C126: as the tests use the two functions, exactly the labellings with the same regions as the expected
one pass; all others raise `AssertionError`. -/
theorem c126_test (obtained expected : Labels n) :
    ∃ a b, regionListFromArray obtained = .ok a ∧ regionListFromArray expected = .ok b ∧
      (compareRegionLists a b = .ok () ↔ SamePartition obtained expected) ∧
      (¬ SamePartition obtained expected → compareRegionLists a b = .raise .assertionError) := by
  obtain ⟨a, ha, han, ham, -⟩ := c126_region_list obtained
  obtain ⟨b, hb, hbn, hbm, -⟩ := c126_region_list expected
  have key : compareRegionLists a b = .ok () ↔ SamePartition obtained expected := by
    rw [c126_compare_partial han, List.perm_ext_iff_of_nodup han hbn]
    simp only [ham, hbm]
    constructor
    · intro h i j
      obtain ⟨i', hi'⟩ := (h (Finset.univ.filter fun k => obtained k = obtained i)).1 ⟨i, by simp⟩
      simp only [Finset.mem_filter, Finset.mem_univ, true_and] at hi'
      have h1 := hi' i
      have h2 := hi' j
      simp only [true_iff] at h1
      rw [h1, eq_comm, h2, eq_comm]
    · intro h s
      constructor
      · rintro ⟨i, hi⟩
        exact ⟨i, fun j => (hi j).trans (h j i)⟩
      · rintro ⟨i, hi⟩
        exact ⟨i, fun j => (hi j).trans (h j i).symm⟩
  refine ⟨a, b, ha, hb, key, fun hn => ?_⟩
  have : compareRegionLists a b ≠ .ok () := fun e => hn (key.1 e)
  revert this
  unfold compareRegionLists
  split_ifs <;> simp

example : SamePartition (![0, 0, 1, 1] : Labels 4) ![5, 5, 2, 2] ∧
    ¬ SamePartition (![0, 0, 1, 1] : Labels 4) ![5, 5, 2, 3] := by
  unfold SamePartition; decide +kernel

/-- C126, what is missing: a list that names a region twice and leaves another one out is accepted. -/
theorem c126_repetition_accepted :
    compareRegionLists [{0}, {0}] [({0} : Finset (Fin 2)), {1}] = .ok () ∧
    compareRegionLists [({0} : Finset (Fin 2)), {1}] [{0}, {0}] = .raise .assertionError := by
  decide +kernel

end

end Region.Props
