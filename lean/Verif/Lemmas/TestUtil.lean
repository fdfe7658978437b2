import Mathlib.Data.Finset.Filter
import Mathlib.Data.Fintype.Basic
import Verif.Model.TestUtil
/-
Lemmas about the functions with which the tests of the library look at results.
-/
namespace Region

section
variable {n : Nat} {labels : Labels n}

/-- The areas among `done` with label `r`. -/
def soFar (labels : Labels n) (done : List (Fin n)) (r : Int) : Finset (Fin n) :=
  done.toFinset.filter fun a => labels a = r

theorem mem_soFar {done : List (Fin n)} {r : Int} {a : Fin n} :
    a ∈ soFar labels done r ↔ a ∈ done ∧ labels a = r := by simp [soFar]

theorem soFar_same (done : List (Fin n)) (area : Fin n) :
    soFar labels (done ++ [area]) (labels area) = insert area (soFar labels done (labels area)) := by
  ext a
  simp only [mem_soFar, List.mem_append, List.mem_singleton, Finset.mem_insert]
  constructor
  · rintro ⟨h | h, e⟩
    · exact .inr ⟨h, e⟩
    · exact .inl h
  · rintro (rfl | ⟨h, e⟩)
    · exact ⟨.inr rfl, rfl⟩
    · exact ⟨.inl h, e⟩

theorem soFar_other (done : List (Fin n)) {area : Fin n} {r : Int} (h : r ≠ labels area) :
    soFar labels (done ++ [area]) r = soFar labels done r := by
  ext a
  simp only [mem_soFar, List.mem_append, List.mem_singleton]
  constructor
  · rintro ⟨h' | rfl, e⟩
    · exact ⟨h', e⟩
    · exact absurd e.symm h
  · rintro ⟨h', e⟩
    exact ⟨.inl h', e⟩

/-- What `region_list_from_array` knows after it has seen the areas `done`. -/
structure ListInv (labels : Labels n) (done : List (Fin n)) (idx : Int → Option Nat) (cur : Nat)
    (regions : List (Finset (Fin n))) (keys : List Int) : Prop where
  nodup : keys.Nodup
  idx_eq : ∀ r j, idx r = some j ↔ keys[j]? = some r
  cur_eq : cur = keys.length
  mem : ∀ r, r ∈ keys ↔ ∃ a ∈ done, labels a = r
  regions_eq : regions = keys.map (soFar labels done)
  order : keys.Pairwise fun r s => ∃ a ∈ done, labels a = r ∧ ∀ b ∈ done, labels b = s → a < b

theorem regionListLoop_post : ∀ (areas done : List (Fin n)) (idx : Int → Option Nat) (cur : Nat)
    (regions : List (Finset (Fin n))) (keys : List Int), ListInv labels done idx cur regions keys →
    (done ++ areas).Pairwise (· < ·) →
    ∃ out idx' cur' keys', regionListLoop labels areas idx cur regions = .ok out ∧
      ListInv labels (done ++ areas) idx' cur' out keys'
  | [], done, idx, cur, regions, keys, h, _ => ⟨regions, idx, cur, keys, rfl, by simpa using h⟩
  | area :: areas, done, idx, cur, regions, keys, h, hs => by
    have hlt : ∀ b ∈ done, b < area := by
      intro b hb
      exact (List.pairwise_append.1 hs).2.2 b hb area (by simp)
    have hnot : area ∉ done := fun hm => lt_irrefl _ (hlt _ hm)
    have hs' : ((done ++ [area]) ++ areas).Pairwise (· < ·) := by simpa using hs
    unfold regionListLoop
    cases hseen : idx (labels area) with
    | none =>
      have hnk : labels area ∉ keys := by
        intro hm
        obtain ⟨j, hj⟩ := List.mem_iff_getElem?.1 hm
        rw [← h.idx_eq, hseen] at hj
        cases hj
      have hlen : regions.length = keys.length := by rw [h.regions_eq]; simp
      simp only [if_true, h.cur_eq, List.length_append, List.length_singleton, hlen,
        Nat.lt_succ_self]
      have := regionListLoop_post areas (done ++ [area])
        (fun r => if r = labels area then some keys.length else idx r) (keys.length + 1)
        ((regions ++ [∅]).modify keys.length fun s => insert area s) (keys ++ [labels area])
        ⟨?_, ?_, by simp, ?_, ?_, ?_⟩ hs'
      · simpa using this
      · rw [List.nodup_append]
        exact ⟨h.nodup, by simp, by rintro a ha b hb; simp at hb; subst hb; exact fun e => hnk (e ▸ ha)⟩
      · intro r j
        by_cases hr : r = labels area
        · subst hr
          simp only [if_true, Option.some.injEq]
          rw [List.getElem?_append]
          split_ifs with hj
          · constructor
            · rintro rfl; omega
            · intro e; exact absurd (List.mem_of_getElem? e) hnk
          · rw [List.getElem?_singleton]
            constructor
            · rintro rfl; simp
            · intro e; split_ifs at e; omega
        · rw [if_neg hr, h.idx_eq, List.getElem?_append]
          split_ifs with hj
          · rfl
          · rw [List.getElem?_singleton, List.getElem?_eq_none (by omega)]
            split_ifs
            · simp [Ne.symm hr]
            · rfl
      · intro r
        simp only [List.mem_append, h.mem, List.mem_singleton]
        constructor
        · rintro (⟨a, ha, rfl⟩ | rfl)
          · exact ⟨a, .inl ha, rfl⟩
          · exact ⟨area, .inr rfl, rfl⟩
        · rintro ⟨a, ha | rfl, rfl⟩
          · exact .inl ⟨a, ha, rfl⟩
          · exact .inr rfl
      · apply List.ext_getElem?
        intro i
        rw [List.getElem?_modify, h.regions_eq, List.getElem?_append, List.map_append,
          List.getElem?_append]
        simp only [List.length_map, List.map_cons, List.map_nil, List.getElem?_singleton,
          List.getElem?_map]
        have hempty : soFar labels done (labels area) = ∅ := by
          rw [Finset.eq_empty_iff_forall_notMem]
          intro a ha
          rw [mem_soFar] at ha
          exact hnk ((h.mem _).2 ⟨a, ha⟩)
        by_cases hi : i < keys.length
        · have hik : ¬ keys.length = i := by omega
          simp only [hi, hik, if_true, if_false, List.getElem?_eq_getElem, Option.map_some,
            Option.map_eq_map, Option.map_some]
          rw [soFar_other done (fun e : keys[i] = labels area => hnk (e ▸ List.getElem_mem hi))]
        · rw [if_neg hi, if_neg hi]
          by_cases hik : keys.length = i
          · subst hik
            simp [soFar_same, hempty]
          · have : ¬ i - keys.length = 0 := by omega
            simp only [this, if_false, Option.map_eq_map, Option.map_none]
      · rw [List.pairwise_append]
        refine ⟨?_, by simp, ?_⟩
        · refine h.order.imp_of_mem ?_
          rintro r s hr hsk ⟨a, ha, har, hb⟩
          refine ⟨a, by simp [ha], har, fun b hb' e => ?_⟩
          rcases List.mem_append.1 hb' with h1 | h1
          · exact hb b h1 e
          · obtain rfl := List.mem_singleton.1 h1
            exact absurd (e ▸ hsk) hnk
        · intro r hr s hs
          obtain rfl := List.mem_singleton.1 hs
          obtain ⟨a, ha, rfl⟩ := (h.mem r).1 hr
          refine ⟨a, by simp [ha], rfl, fun b hb e => ?_⟩
          rcases List.mem_append.1 hb with h1 | h1
          · exact absurd ((h.mem _).2 ⟨b, h1, e⟩) hnk
          · obtain rfl := List.mem_singleton.1 h1
            exact hlt a ha
    | some j =>
      have hj := (h.idx_eq _ _).1 hseen
      obtain ⟨hjl, hje⟩ := List.getElem?_eq_some_iff.1 hj
      have hlen : regions.length = keys.length := by rw [h.regions_eq]; simp
      simp only [reduceCtorEq, if_false, hseen, hlen, hjl, if_true]
      have := regionListLoop_post areas (done ++ [area]) idx cur
        (regions.modify j fun s => insert area s) keys
        ⟨h.nodup, h.idx_eq, h.cur_eq, ?_, ?_, ?_⟩ hs'
      · simpa using this
      · intro r
        rw [h.mem]
        constructor
        · rintro ⟨a, ha, rfl⟩
          exact ⟨a, by simp [ha], rfl⟩
        · rintro ⟨a, ha, rfl⟩
          rcases List.mem_append.1 ha with h1 | h1
          · exact ⟨a, h1, rfl⟩
          · obtain rfl := List.mem_singleton.1 h1
            exact (h.mem _).1 (List.mem_of_getElem? hj)
      · apply List.ext_getElem?
        intro i
        rw [List.getElem?_modify, h.regions_eq]
        simp only [List.getElem?_map]
        by_cases hij : j = i
        · subst hij
          rw [hj]
          simp [soFar_same]
        · simp only [hij, if_false]
          cases hk : keys[i]? with
          | none => rfl
          | some r =>
            simp only [Option.map_some]
            rw [soFar_other done]
            · rfl
            · rintro rfl
              obtain ⟨hil, hie⟩ := List.getElem?_eq_some_iff.1 hk
              exact hij ((h.nodup.getElem_inj_iff).1 (hje.trans hie.symm))
      · refine h.order.imp_of_mem ?_
        rintro r s hr hs ⟨a, ha, har, hb⟩
        refine ⟨a, by simp [ha], har, fun b hb' e => ?_⟩
        rcases List.mem_append.1 hb' with h1 | h1
        · exact hb b h1 e
        · obtain rfl := List.mem_singleton.1 h1
          exact hlt a ha

end

end Region
