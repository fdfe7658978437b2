import Verif.Props.Extremes
import Verif.Props.Skater
/-
Property theorems C143: as many regions as areas.
-/
namespace Region.Props

open Region Spec

section
variable {n q : Nat} {ρ : Type} (o : MstOrder) (expf : ℚ → ℚ) {adj : Adj n} (attr : Fin n → ρ)

/-- C143: AZP asked for as many regions as there are areas returns, and every area is a region of its own. -/
theorem c143_azp_partial {obj : Objective ρ} (he : obj.Exact) (ht : obj.Total) (hs : Spec.Symmetric adj)
    (hn : 2 ≤ n) (fuel : Nat) (hf : n + n ^ n < fuel) (st : Strat n q) (rng : Rng) :
    ∃ labels st' rng', azpFit o expf obj fuel adj attr n none st rng = .ok (labels, st', rng') ∧
      AllAlone labels := by
  obtain ⟨L, st', r', h1, h2, -⟩ := c22_fit_from_scratch o expf he ht hs attr n hn le_rfl (nComponents_le adj)
    fuel hf st rng
  exact ⟨L, st', r', h1, allAlone_of_numRegions h2.2⟩

/-- C143: so does simulated annealing, whenever it returns labels. -/
theorem c143_annealing_partial (obj : Objective ρ) (hs : Spec.Symmetric adj) (f1 f2 f3 : Nat) (P : SaParams)
    (self : SaObj) (cooling : ℚ) (rng : Rng) {L : Labels n} {self' : SaObj} {st' : Strat n 0} {rng' : Rng}
    (h : saFit o expf obj f1 f2 f3 P self adj attr n none cooling rng = .ok (some L, self', st', rng')) :
    AllAlone L :=
  allAlone_of_numRegions ((c29_feasible o expf obj f1 f2 f3 P self hs attr n none (fun _ h => by cases h) cooling
    rng h).2 L rfl).2

/-- C143: and the basic tabu search. -/
theorem c143_basic_tabu_partial {metric : ρ → ρ → ℚ} (hd : Dissimilarity metric) (len : Option Nat) (reps : Int)
    (fuel : Nat) (v : ℚ) (rng : Rng) {labels : Labels n} {st' : Strat n q} {rng' : Rng}
    (h : basicTabuFit o expf (pairwise metric) fuel len reps adj attr n none (.azp v) rng =
      .ok (labels, st', rng')) : AllAlone labels :=
  allAlone_of_numRegions (c34_result_feasible o expf hd attr n none len reps fuel v rng h).2

/-- C143 is false for the reactive tabu search: on every connected map with two or more areas it raises an
exception. -/
theorem c143_reactive_raises (obj : Objective ρ) (hcon : Connected adj) (hn : 2 ≤ n) (maxIt : Nat)
    (hit : 1 ≤ maxIt) (k1 k2 : Int) (self : ReactSelf (Strat n q)) (rng : Rng) :
    ∃ e, reactiveTabuFit o expf obj maxIt k1 k2 adj attr n none self rng = .raise e := by
  have h : (reactiveTabuFit o expf obj maxIt k1 k2 adj attr n none self rng).Post True False fun _ => False := by
    unfold reactiveTabuFit
    refine fitWith_one (Q := fun _ _ => False) (p := (n : Int)) (initial := none) o hcon
      ⟨by omega, le_rfl, by omega, by exact_mod_cast nComponents_le adj⟩ (fun _ h => by cases h) self rng ?_
    rintro lab ⟨-, h2, -⟩ rng
    have hinj : AllAlone lab := allAlone_of_numRegions (by exact_mod_cast h2)
    have hget : Function.Injective fun i => lab ((List.finRange n).get i) := fun u v h =>
      (List.nodup_iff_injective_get.1 (List.nodup_finRange n)) (hinj h)
    dsimp only
    rw [c39_attribute_error _ _ _ (fun u v h => hget h) ?_ _ hit]
    · trivial
    · unfold numRegions
      rw [Finset.card_image_of_injective _ hget, Finset.card_univ, Fintype.card_fin, List.length_finRange]
      omega
  generalize reactiveTabuFit o expf obj maxIt k1 k2 adj attr n none self rng = res at h ⊢
  cases res with
  | ok x => exact h.elim
  | raise e => exact ⟨e, rfl⟩
  | timeout => exact h.elim

end

section
variable {n m : Nat} {adj : Adj n} (attr : Fin n → Row m) (metric : Metric)

/-- C143 is false for the order method: it raises `KeyError`. -/
theorem c143_order_raises (hn : 0 < n) (s : Solvers n) (r : Rng) :
    exactFit adj attr n .order s metric r = .raise .keyError := by
  unfold exactFit
  rw [if_neg (by omega), if_neg (by omega)]
  simp [order, c51_order_key_error hn]

/-- C143 is false for the flow and the tree method: the problems have no solution, so that the labels are not
those of a solution. -/
theorem c143_no_solution (hs : Spec.Symmetric adj) (hl : ∀ i, adj i i = false) (hn : 0 < n) :
    (∀ P, flowLp adj (columnD metric attr) n = .ok P → ∀ a, ¬ P.Feasible a) ∧
    ∀ P, treeLp adj (columnD metric attr) n = .ok P → ∀ a, ¬ P.Feasible a :=
  ⟨fun _ hP a => c49_singletons_infeasible hn hP a,
    fun _ hP a => c53_tree_infeasible hs hl hn (by omega) hP a⟩

end

section
open Skater

/-- C143: SKATER without a quorum, asked for as many clusters as areas, for more, or for `np.inf`, makes every
area a cluster of its own. -/
theorem c143_skater {o : WeightOrder} {S : SpanningForest} {n fuel : Nat} {nClusters : Option Int}
    (hk : ∀ k ∈ nClusters, (n : Int) ≤ k) {W : Adj n} {data : Option (Σ m : Nat, Fin n → Row m)} {trace : Bool}
    {islands : String} {f : Outcome n} (h : fit o S fuel nClusters W data none trace islands = .ok f) :
    AllAlone f.labels := by
  obtain ⟨isl, hisl⟩ : ∃ isl : Fin n → Int, Separates isl (links S.metric W data) :=
    ⟨treeLabels (startForest o S W data), fun a b => by
      rw [links_eq]
      exact (treeLabels_separates _ a b).trans ((startForest_spec o S W data).2.2.1 a b)⟩
  have hw : ∀ t ∈ wanted nClusters islands (numRegions isl), (n : Int) ≤ t := by
    intro t ht
    unfold wanted at ht
    split_ifs at ht
    · cases nClusters with
      | none => cases ht
      | some k =>
        cases ht
        have := hk k rfl
        simp only []
        omega
    · exact hk t ht
  obtain ⟨hsep, -, -, h1 | ⟨-, t, ht, h1⟩ | ⟨h1, h2⟩⟩ := c60_number h hisl
  · have := hw _ h1
    exact allAlone_of_numRegions (le_antisymm (numRegions_le _) (by exact_mod_cast this))
  · have := hw _ ht
    exact allAlone_of_numRegions (le_antisymm (numRegions_le _) (by omega))
  · have hnil : f.forest = [] := by
      cases hf : f.forest with
      | nil => rfl
      | cons e es =>
        obtain ⟨q, hq, -⟩ := h2 e (by rw [hf]; exact List.mem_cons_self) _ (treeLabels_separates _)
        cases hq
    intro u v huv
    have := (hsep u v).1 huv
    rw [hnil] at this
    induction this with
    | refl => rfl
    | tail _ hb _ => simp [Borders, adjOf] at hb

end

/-! ### Concrete cases -/

example (r : Rng) : ∃ L st' r', azpFit .rowMajor (fun _ => 0) (pairwise manhattan) 300 path4
      (column ![0, 1, 10, 100]) (4 : Nat) none (.azp 0 : Strat 4 0) r = .ok (L, st', r') ∧ AllAlone L :=
  c143_azp_partial .rowMajor _ _
    (c24_pairwise manhattan_dissimilarity.symm manhattan_dissimilarity.zero).1
    (c24_pairwise manhattan_dissimilarity.symm manhattan_dissimilarity.zero).2 path4_symm' (by omega) 300 (by decide) _ r

example (r : Rng) : ∃ e, reactiveTabuFit .rowMajor (fun _ => 0) (pairwise manhattan) 40 1 1 path4
      (column ![0, 1, 10, 100]) (4 : Nat) none (.fresh (.azp 0 : Strat 4 0)) r = .raise e :=
  c143_reactive_raises .rowMajor _ _ _ ((nComponents_eq_one_iff _).1 (by decide +kernel)) (by omega) 40 (by omega)
    1 1 _ r

example (s : Solvers 4) (r : Rng) :
    exactFit path4 (column ![0, 1, 10, 100]) 4 .order s manhattanM r = .raise .keyError :=
  c143_order_raises _ _ (by omega) s r

/-- Both problems can be written down for the path. -/
example : (∃ P, flowLp path4 (columnD manhattanM (column ![0, 1, 10, 100])) 4 = .ok P ∧ ∀ a, ¬ P.Feasible a) ∧
    ∃ P, treeLp path4 (columnD manhattanM (column ![0, 1, 10, 100])) 4 = .ok P ∧ ∀ a, ¬ P.Feasible a := by
  obtain ⟨h1, h2⟩ := c143_no_solution (adj := path4) (column ![0, 1, 10, 100]) manhattanM path4_symm' (by decide)
    (by omega)
  obtain ⟨P, hP⟩ := (c48_flow_builds (adj := path4) (d := columnD manhattanM (column ![0, 1, 10, 100])) (p := 4)
    (by omega)).2 path4_symm'
  obtain ⟨Q, hQ⟩ := c52_tree_builds (adj := path4) (d := columnD manhattanM (column ![0, 1, 10, 100])) (p := 4)
  exact ⟨⟨P, hP, h1 P hP⟩, Q, hQ, h2 Q hQ⟩

/-- Basic tabu search on the path. -/
example : (match basicTabuFit (q := 0) .rowMajor (fun _ => 0) (pairwise manhattan) 20 none 3 path4
      (column ![0, 0, 5, 5]) (4 : Nat) none (.azp 0) fun _ => 0 with
    | .ok (L, _, _) => (arrayList L).dedup.length
    | _ => 0) = 4 := by decide +kernel

/-- Simulated annealing on the path. -/
example : (match saFit .rowMajor (fun _ => 0) (pairwise manhattan) 20 5 30 saDemo .fresh path4
      (ramp 4) (4 : Nat) none (1/2) fun _ => 0 with
    | .ok (some L, _, _, _) => (arrayList L).dedup.length
    | _ => 0) = 4 := by decide +kernel

/-- SKATER on the path, asked for six clusters. -/
example : (match Skater.fit stableOrder .default 10 (some 6) path4 (four ![0, 1, 10, 12]) none false "increase" with
    | .ok f => (arrayList f.labels).dedup.length
    | _ => 0) = 4 := by decide +kernel

end Region.Props
