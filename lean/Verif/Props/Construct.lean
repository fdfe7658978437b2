import Verif.Lemmas.MaxPConstruct
import Verif.Props.MaxPHeu
/-
Property theorems C111: all partitions the construction phase of the max-p heuristic can make.
-/
namespace Region.Props

open Region Spec

section
variable {n q : Nat} {ρ : Type} (metric : ρ → ρ → ℚ) (attr : Fin n → ρ) (spat : Fin n → Fin q → ℚ)
  (thr : Fin q → ℚ)

/-- C111: `grow_regions` can end with exactly the regions and enclaves of the described procedure. -/
theorem c111_grow_regions {adj : Adj n} (hs : Symmetric adj) (hloop : ∀ v, adj v v = false)
    (P : List (Finset (Fin n))) (E : Finset (Fin n)) :
    (∃ r P' E' r', growRegions metric adj attr spat thr r = .ok ((P', E'), r') ∧
      P'.map List.toFinset = P ∧ E'.toFinset = E) ↔
      Constructed adj (fun a b => metric (attr a) (attr b)) spat thr [] ∅ Finset.univ P E := by
  have h0 : GrowInv adj spat thr [] [] (List.finRange n) [] :=
    ⟨by simp, by simp, (fun _ h => by cases h), (fun _ _ _ h => by cases h), (fun _ h => by cases h)⟩
  have hU : (List.finRange n).toFinset = Finset.univ := by ext; simp
  constructor
  · rintro ⟨r, P', E', r', h, rfl, rfl⟩
    have := growLoop_sound hs hloop n h0 h
    rwa [hU] at this
  · intro h
    obtain ⟨P', E', h1, h2, h3⟩ := growLoop_complete hs hloop h n h0 rfl rfl hU (by simp)
    obtain ⟨r, h3⟩ := h3 fun _ => 0
    exact ⟨r, P', E', _, h3, h1, h2⟩

end

/-- C111: `assign_enclaves` can end with exactly the partitions of the described procedure. -/
theorem c111_assign_enclaves {n : Nat} {ρ : Type} (metric : ρ → ρ → ℚ) (attr : Fin n → ρ) {adj : Adj n}
    (hs : Symmetric adj) {P : List (List (Fin n))} {E : List (Fin n)}
    (hperm : (P.flatten ++ E).Perm (List.finRange n)) (hc : ∀ reg ∈ P, Contiguous adj {v | v ∈ reg})
    (P' : List (Finset (Fin n))) :
    (∃ r Q r', assignEnclaves metric adj attr P E r = .ok (Q, r') ∧ Q.map List.toFinset = P') ↔
      Absorbed adj (fun a b => metric (attr a) (attr b)) (P.map List.toFinset) E.toFinset P' := by
  have h0 : Partial adj (fun _ => True) P E := ⟨hperm, hc, fun _ _ => trivial⟩
  constructor
  · rintro ⟨r, Q, r', h, rfl⟩
    exact assignLoop_sound hs _ h0 h
  · intro h
    obtain ⟨Q, h1, h2⟩ := assignLoop_complete hs h E.length h0 rfl rfl le_rfl
    obtain ⟨r, h2⟩ := h2 fun _ => 0
    exact ⟨r, Q, _, h2, h1⟩

/-- On the path of five areas with the values 0, 1, 2, 3, 4, where a region needs two areas, the procedure can
take the pairs 0, 1 and 2, 3 and leave area 4 aside … -/
theorem c111_ends_aside : Constructed path5 (fun a b => manhattan (ramp 5 a) (ramp 5 b)) (fun _ (_ : Fin 1) => 1)
    (fun _ => 2) [] ∅ Finset.univ [{0, 1}, {2, 3}] {4} := by
  rw [← c111_grow_regions manhattan (ramp 5) _ _ path5_symm (by decide)]
  have : (match growRegions manhattan path5 (ramp 5) (fun _ (_ : Fin 1) => 1) (fun _ => 2) (fun _ => 0) with
      | .ok ((P, E), _) => (P, E)
      | _ => ([], [])) = ([[0, 1], [2, 3]], [4]) := by decide +kernel
  split at this
  · next P E r' h =>
    cases this
    exact ⟨_, _, _, _, h, by decide, by decide⟩
  · cases this

/-- … and area 4 then joins the region of its only neighbour. -/
theorem c111_joins : Absorbed path5 (fun a b => manhattan (ramp 5 a) (ramp 5 b)) [{0, 1}, {2, 3}] {4} [{0, 1}, {2, 3, 4}] := by
  have := (c111_assign_enclaves manhattan (ramp 5) path5_symm (P := [[0, 1], [2, 3]]) (E := [4]) (by decide)
    ?_ [{0, 1}, {2, 3, 4}]).1 ?_
  · simpa using this
  · have h := c41_grow_regions manhattan (ramp 5) (fun _ (_ : Fin 1) => 1) (fun _ => 2) path5_symm
      (by decide) (fun _ => 0)
    obtain ⟨P, E, r', h1, _, h3⟩ := h
    have : (match growRegions manhattan path5 (ramp 5) (fun _ (_ : Fin 1) => 1) (fun _ => 2)
        (fun _ => 0) with
      | .ok ((P, E), _) => P
      | _ => []) = [[0, 1], [2, 3]] := by decide +kernel
    rw [h1] at this
    dsimp only at this
    rw [← this]
    exact fun reg hr => (h3 reg hr).1
  · have : (match assignEnclaves manhattan path5 (ramp 5) [[0, 1], [2, 3]] [4] (fun _ => 0) with
      | .ok (P, _) => P
      | _ => []) = [[0, 1], [2, 3, 4]] := by decide +kernel
    split at this
    · next Q r' h => cases this; exact ⟨_, _, _, h, by decide⟩
    · cases this

/-- A region only grows. -/
theorem built_subset {V Q : Type} [DecidableEq V] {adj : V → V → Bool} {d : V → V → ℚ} {spat : V → Q → ℚ}
    {thr : Q → ℚ} {U R U' R' : Finset V} {ok : Bool} (h : Built adj d spat thr U R ok U' R') : R ⊆ R' := by
  induction h with
  | full => exact Finset.Subset.refl _
  | stuck => exact Finset.Subset.refl _
  | take _ _ _ _ _ ih => exact (Finset.subset_insert _ _).trans ih

/-- Not everything is possible: with the values 0, 1, 5, 6 on a path of four areas, where a region needs two
areas, the seed 1 takes in area 0 and not area 2. -/
theorem c111_least {ok : Bool} {U R : Finset (Fin 4)} (h : Built path4
    (fun a b => manhattan (column ![0, 1, 5, 6] a) (column ![0, 1, 5, 6] b)) (fun _ (_ : Fin 1) => 1)
    (fun _ => 2) (Finset.univ.erase 1) {1} ok U R) : 0 ∈ R := by
  cases h with
  | full h => exact absurd (h 0) (by decide +kernel)
  | stuck _ hn => exact absurd ⟨1, by decide, Or.inl (by decide)⟩ (hn 0 (by decide))
  | @take _ _ _ _ _ v _ hv ht hm t =>
    have h0 := hm 0 (by decide) ⟨1, by decide, Or.inl (by decide)⟩
    have hle : v = 0 := by
      obtain ⟨u, hu, hb⟩ := ht
      obtain rfl : u = 1 := by simpa using hu
      revert hb h0 hv
      unfold Borders
      clear hm t hu
      revert v
      decide +kernel
    subst hle
    exact built_subset t (by simp)

end Region.Props
