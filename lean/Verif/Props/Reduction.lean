import Verif.Lemmas.Potential
import Verif.Lemmas.Reads
import Verif.Props.AzpTabu
/-
Property theorems C121: AZP with the reductions of `ObjectiveFunctionCenter` (objective_function.py
95-165).
-/
namespace Region.Props

open Region Spec Relation

/-! ### C121 -/

/-- C121 (part): `fit` ends from every good start, whatever the random draws, if `update` returns the
change of *some* function of the labels, which need not be the objective itself. -/
theorem c121_potential_partial {n q : Nat} {ρ : Type} (o : MstOrder) (expf : ℚ → ℚ)
    {obj : Objective ρ} (ht : obj.Total) (Φ : {k : Nat} → Labels k → (Fin k → ρ) → ℚ)
    (hΦ : ∀ {k : Nat} (a : Fin k) (r : Int) (labels : Labels k) (attr : Fin k → ρ) (v : ℚ),
      obj.update a r labels attr = some v → Φ (moved labels a r) attr = Φ labels attr + v)
    {adj : Adj n} (attr : Fin n → ρ)
    (p : Int) (initial : Option (Labels n)) (hstart : GoodStart adj p initial) (fuel : Nat)
    (hf : n + n ^ n < fuel) (st : Strat n q) (rng : Rng) :
    ∃ out, azpFit o expf obj fuel adj attr p initial st rng = .ok out := by
  refine fitWith_total o attr p initial hstart (fun idx init st rng hne hlen hcont => ?_) st rng
  have hnum : numRegions init ≤ idx.length := by
    unfold numRegions
    exact Finset.card_image_le.trans (by simp)
  have hpow : numRegions init ^ idx.length ≤ n ^ n := by
    have h1 : 0 < n := lt_of_lt_of_le (List.length_pos_iff.2 hne) hlen
    exact (Nat.pow_le_pow_left (hnum.trans hlen) _).trans (Nat.pow_le_pow_right h1 hlen)
  generalize hat : (fun i => attr (idx.get i)) = at'
  obtain ⟨out, h⟩ := c24_component_terminates (q := q) expf
    (obj := obj.withCall fun L a => Φ L a + (obj.call init at' - Φ init at'))
    (by
      intro k a r labels attr v h
      change Φ _ _ + _ = Φ _ _ + _ + v
      rw [hΦ a r labels attr v h]
      ring)
    (Objective.withCall_total ht _) idx hne (subAdj adj idx) init at' fuel
    (by omega) st rng
  refine ⟨out, ?_⟩
  rw [← h]
  unfold azpComp
  rw [Strat.ops_withCall]
  congr 2
  change _ = Φ init at' + _
  ring

/-- C121 (part): `fit` with `ObjectiveFunctionCenter` ends for every metric and center if the reduction
of two numbers is a multiple of their sum, for instance `sum`, `mean` and `median`. -/
theorem c121_linear_partial {n q : Nat} {ρ : Type} (o : MstOrder) (expf : ℚ → ℚ)
    (metric : ρ → ρ → ℚ) (center : List ρ → ρ) {reduction : List ℚ → ℚ} {w : ℚ}
    (hw : ∀ x y, reduction [x, y] = w * (x + y))
    {adj : Adj n} (attr : Fin n → ρ)
    (p : Int) (initial : Option (Labels n)) (hstart : GoodStart adj p initial) (fuel : Nat)
    (hf : n + n ^ n < fuel) (st : Strat n q) (rng : Rng) :
    ∃ out, azpFit o expf (centered metric center reduction) fuel adj attr p initial st rng =
      .ok out :=
  c121_potential_partial o expf (centered_total metric center reduction)
    (fun L a => w * totalHeterogeneity metric center reduction L a)
    (fun _ _ _ _ _ h => centerUpdate_total metric center reduction hw h)
    attr p initial hstart fuel hf st rng

/-- `np.mean`. -/
def listMean (l : List ℚ) : ℚ := l.sum / l.length

/-- `np.median`. -/
def listMedian (l : List ℚ) : ℚ :=
  let s := l.mergeSort fun a b => decide (a ≤ b)
  (s.getD ((s.length - 1) / 2) 0 + s.getD (s.length / 2) 0) / 2

theorem listMean_two (x y : ℚ) : listMean [x, y] = 1 / 2 * (x + y) := by
  simp [listMean]; ring

theorem listMedian_two (x y : ℚ) : listMedian [x, y] = 1 / 2 * (x + y) := by
  unfold listMedian
  have : ([x, y].mergeSort fun a b => decide (a ≤ b)) = [x, y] ∨
      ([x, y].mergeSort fun a b => decide (a ≤ b)) = [y, x] := by
    by_cases h : x ≤ y
    · exact .inl (by simp [List.mergeSort, h])
    · exact .inr (by simp [List.mergeSort, h])
  rcases this with e | e <;> simp only [e] <;> simp <;> ring

/-- A run with `reduction = mean` in which an area changes its region. -/
example : (match azpFit (q := 0) .rowMajor (fun _ => 0) (centered manhattan meanRow listMean) 261
      path4 (column ![0, 1, 10, 10]) (2 : Nat) (some ![0, 1, 1, 1]) (.azp 0) fun _ => 0 with
    | .ok (L, _, _) => arrayList L
    | _ => []) = [0, 0, 1, 1] ∧ 4 + 4 ^ 4 < 261 := by decide +kernel

/-- With `reduction = mean`, `update` is not the change of the objective, but that change times half the
number of regions: the sign is right. -/
theorem c121_mean {ρ : Type} (metric : ρ → ρ → ℚ) (center : List ρ → ρ) {k : Nat} {a : Fin k}
    {r : Int} {labels : Labels k} {attr : Fin k → ρ} {v : ℚ}
    (h : (centered metric center listMean).update a r labels attr = some v) :
    v = numRegions labels / 2 * ((centered metric center listMean).call (moved labels a r) attr -
      (centered metric center listMean).call labels attr) := by
  have h1 := centerUpdate_total metric center listMean listMean_two h
  have hcall : ∀ L : Labels k, centerCall metric center listMean L attr =
      totalHeterogeneity metric center listMean L attr / numRegions L := by
    intro L
    unfold centerCall listMean totalHeterogeneity
    rw [List.length_map, length_unique_labels]
    congr 1
    rw [← List.sum_toFinset _ (uniqueSorted_nodup _), toFinset_uniqueSorted, toFinset_arrayList]
  have hnum : numRegions (moved labels a r) = numRegions labels := by
    obtain ⟨⟨i, hi⟩, ⟨j, hj⟩⟩ := (centerUpdate_some metric center listMean).1 ⟨v, h⟩
    unfold numRegions
    congr 1
    ext x
    simp only [Finset.mem_image, Finset.mem_univ, true_and]
    constructor
    · rintro ⟨y, rfl⟩
      by_cases hy : y = a
      · exact ⟨i, by simp [moved, hy, hi]⟩
      · exact ⟨y, by simp [moved, hy]⟩
    · rintro ⟨y, rfl⟩
      by_cases hy : y = a
      · exact ⟨j, by rw [hj, hy]⟩
      · exact ⟨y, by simp [moved, hy]⟩
  have hpos : (0 : ℚ) < numRegions labels := by
    unfold numRegions
    rw [Nat.cast_pos, Finset.card_pos]
    exact ⟨labels a, by simp⟩
  change v = _ * (centerCall metric center listMean _ attr - centerCall metric center listMean _ attr)
  rw [hcall, hcall, hnum]
  field_simp
  linarith

/-- Three regions; the objective changes by -1/6 and `update` returns -1/4. -/
example : (centered manhattan meanRow listMean).update (2 : Fin 5) 0 ![0, 0, 1, 1, 2]
      (column ![0, 0, 0, 1, 5]) = some (-1/4) ∧
    (centered manhattan meanRow listMean).call (moved (![0, 0, 1, 1, 2] : Labels 5) 2 0)
      (column ![0, 0, 0, 1, 5]) -
    (centered manhattan meanRow listMean).call (![0, 0, 1, 1, 2] : Labels 5)
      (column ![0, 0, 0, 1, 5]) = -1/6 := by decide +kernel

/-! #### An endless run with `reduction = max` -/

/-- Six areas in a row. -/
def row6 : Adj 6 := fun i j => decide (i.val + 1 = j.val ∨ j.val + 1 = i.val)

def row6Start : Labels 6 := ![0, 0, 0, 1, 1, 2]

/-- The numbers drawn in the endless run. -/
def circleTape : Rng := fun i => if i % 10 = 0 then 2 else if i % 10 = 2 then 1 else 0

theorem circleTape_mod (m : Nat) : circleTape.drop m = circleTape.drop (m % 10) := by
  funext i
  simp only [Rng.drop, circleTape, Nat.add_mod_mod]

theorem circleTape_start (m : Nat)
    (h : (List.range 10).map (circleTape.drop m) = (List.range 10).map circleTape) :
    circleTape.drop m = circleTape := by
  rw [circleTape_mod m] at h ⊢
  have hm : m % 10 < 10 := Nat.mod_lt _ (by omega)
  generalize hk : (⟨m % 10, hm⟩ : Fin 10) = k
  have hk' : m % 10 = k.val := by rw [← hk]
  rw [hk'] at h ⊢
  have : k = 0 := by
    revert h
    clear hk hk' hm
    revert k
    decide +kernel
  rw [this]
  rfl

/-- The areas of the only component, as `fit` computes them. -/
def row6Idx : List (Fin 6) := (List.finRange 6).filter fun i => decide (row6Start i ≠ -1)

/-- The attributes 0, 1, 2, 0, 1, 1. -/
def row6Attr : Fin 6 → Row 1 := column ![0, 1, 2, 0, 1, 1]

/-- The strategy object at work on the component. -/
def row6Ops : StratOps (Strat 6 0) row6Idx.length :=
  Strat.ops (fun _ => 0) (fun i => row6Idx.get i) (fun i => row6Attr (row6Idx.get i))
    (centered manhattan meanRow listMax)

def row6Init : Labels row6Idx.length := fun i => row6Start (row6Idx.get i)

/-- The state at the beginning of every pass. -/
def circleState (v : ℚ) : AzpState (Strat 6 0) row6Idx.length where
  labels := row6Init
  nbrs := initNbrs (subAdj row6 row6Idx) row6Init (uniqueSorted (arrayList row6Init))
  strat := .azp v
  rng := circleTape

/-- What can be observed of a state. -/
abbrev CircleSeen := (List Int × Option ℚ) × List (Option (List Bool)) × List Nat

/-- The observation. -/
def circleView : Res (AzpState (Strat 6 0) row6Idx.length) → Option CircleSeen
  | .ok s => some ((arrayList s.labels, match s.strat with | .azp v => some v | _ => none),
      [0, 1, 2].map fun r => (s.nbrs r).map fun N => (List.finRange _).map N,
      (List.range 10).map s.rng)
  | _ => none

def isTimeout {α : Type} : Res α → Bool
  | .timeout => true
  | _ => false

theorem eq_of_isTimeout {α : Type} {x : Res α} (h : isTimeout x = true) : x = .timeout := by
  cases x with
  | timeout => rfl
  | ok => cases h
  | raise => cases h

/-- One pass leads back to the same labels; the stored value is 1/2 smaller. -/
theorem circle_pass : passRegions row6Ops (subAdj row6 row6Idx) 4
    (uniqueSorted (arrayList row6Init)).length (uniqueSorted (arrayList row6Init))
      (circleState 0) = .ok (circleState (-1/2)) := by
  obtain ⟨k, out, hr⟩ := passRegions_reads (ops := row6Ops) (strat_ops_reads _ _ _ _)
    (subAdj row6 row6Idx) 4 (uniqueSorted (arrayList row6Init)).length
    (uniqueSorted (arrayList row6Init)) (circleState 0) circleTape
  have hr := hr _ fun _ _ => rfl
  have hv : circleView (passRegions row6Ops (subAdj row6 row6Idx) 4
      (uniqueSorted (arrayList row6Init)).length (uniqueSorted (arrayList row6Init))
      (circleState 0)) = circleView (.ok (circleState (-1/2))) := by decide +kernel
  change passRegions _ _ _ _ _ (circleState 0) = _ at hr
  have hkeys : ∀ s, passRegions row6Ops (subAdj row6 row6Idx) 4
      (uniqueSorted (arrayList row6Init)).length (uniqueSorted (arrayList row6Init))
      (circleState 0) = .ok s → NoNewKeys (circleState 0).nbrs s.nbrs :=
    fun s => passRegions_keys 4 _ _ _ s
  rw [hr] at hv hkeys ⊢
  cases out with
  | raise e => cases hv
  | timeout => cases hv
  | ok s =>
    rw [Res.bind_ok] at hv hkeys ⊢
    have hk := hkeys _ rfl
    clear hkeys hr
    obtain ⟨L, N, st, rng⟩ := s
    dsimp only [mkA] at hv hk ⊢
    unfold circleView at hv
    simp only [Option.some.injEq, Prod.mk.injEq] at hv
    obtain ⟨⟨h1, h2⟩, h3, h4⟩ := hv
    cases st with
    | sa => cases h2
    | maxp => cases h2
    | azp v =>
      have h2 : v = -1/2 := by
        have : some v = some (-1/2 : ℚ) := h2
        exact Option.some.inj this
      have h1 : L = row6Init := arrayList_inj h1
      have h4 := circleTape_start k h4
      have h3' : ∀ r ∈ [0, 1, 2], N r = (circleState (-1/2)).nbrs r := by
        intro r hr
        have : (N r).map (fun N => (List.finRange _).map N) =
            ((circleState (-1/2)).nbrs r).map fun N => (List.finRange _).map N :=
          List.map_inj_left.1 h3 r hr
        cases hN : N r with
        | none =>
          rw [hN] at this
          cases hM : (circleState (-1/2)).nbrs r with
          | none => rfl
          | some M => rw [hM] at this; cases this
        | some A =>
          rw [hN] at this
          cases hM : (circleState (-1/2)).nbrs r with
          | none => rw [hM] at this; cases this
          | some M =>
            rw [hM] at this
            congr 1
            funext i
            exact List.map_inj_left.1 (Option.some.inj this) i (List.mem_finRange i)
      have h5 : N = (circleState (-1/2)).nbrs := by
        funext r
        by_cases hr : r ∈ [0, 1, 2]
        · exact h3' r hr
        · have : (circleState 0).nbrs r = none := by
            change (if _ then _ else _) = _
            rw [if_neg]
            have : uniqueSorted (arrayList row6Init) = [0, 1, 2] := by decide +kernel
            rw [this]
            simpa using hr
          rw [hk r this]
          exact this.symm
      rw [h1, h2, h4, h5]
      rfl

theorem circle_short : ∀ f < 4, passRegions row6Ops (subAdj row6 row6Idx) f
    (uniqueSorted (arrayList row6Init)).length (uniqueSorted (arrayList row6Init))
      (circleState 0) = .timeout := by
  intro f hf
  apply eq_of_isTimeout
  revert f
  decide +kernel

theorem circle_any (f : Nat) (v : ℚ) :
    passRegions row6Ops (subAdj row6 row6Idx) f
      (uniqueSorted (arrayList row6Init)).length (uniqueSorted (arrayList row6Init))
      (circleState v) = .timeout ∨
    passRegions row6Ops (subAdj row6 row6Idx) f
      (uniqueSorted (arrayList row6Init)).length (uniqueSorted (arrayList row6Init))
      (circleState v) = .ok (circleState (v + -1/2)) := by
  have hrel := passRegions_rel (SR := Strat.Shifted v) (ops := row6Ops) (ops' := row6Ops)
    (Strat.shifted_calls _ _ _ _ v) (subAdj row6 row6Idx) f
    (uniqueSorted (arrayList row6Init)).length (uniqueSorted (arrayList row6Init))
    (s := circleState 0) (s' := circleState v)
    ⟨rfl, rfl, ⟨0, rfl, by rw [zero_add]; rfl⟩, rfl⟩
  by_cases hf : f < 4
  · rw [circle_short f hf] at hrel
    left
    generalize passRegions _ _ _ _ _ (circleState v) = x at hrel ⊢
    cases x with
    | timeout => rfl
    | ok => exact hrel.elim
    | raise => exact hrel.elim
  · right
    rw [passRegions_fuel (f := 4) (by omega) _ _ _ _ circle_pass] at hrel
    obtain ⟨s, h1, h2⟩ := hrel.ok_left
    rw [h1]
    obtain ⟨L, N, st, rng⟩ := s
    obtain ⟨e1, e2, ⟨u, e3, e4⟩, e5⟩ := h2
    dsimp only at e1 e2 e4 e5
    have e3 : Strat.azp (-1/2) = Strat.azp u := e3
    cases e3
    rw [← e1, ← e2, e4, ← e5, add_comm]
    rfl

/-- C121 is false: with `reduction = max` (and absolute differences from the mean), six areas in a row
with the attributes 0, 1, 2, 0, 1, 1 and the feasible initial labels 0, 0, 0, 1, 1, 2, there are random
draws for which AZP never ends: every pass leads back to the initial labels, and the updates of its
moves add up to -1/2. -/
theorem c121_endless : Symmetric row6 ∧ GoodStart row6 (3 : Nat) (some row6Start) ∧
    ∃ rng, ∀ fuel, azpFit (q := 0) .rowMajor (fun _ => 0) (centered manhattan meanRow listMax) fuel
      row6 row6Attr (3 : Nat) (some row6Start) (.azp 0) rng = .timeout := by
  refine ⟨by unfold Spec.Symmetric; decide +kernel,
    ⟨((c04_assert_feasible_ok row6Start row6 none).1 (by decide +kernel)).1,
    by decide +kernel, fun v => ⟨v, .refl, ?_⟩⟩, circleTape, fun fuel => ?_⟩
  · revert v; decide +kernel
  have h1 : assertFeasible row6Start row6 (some ((3 : Nat) : Int)) = .ok () := by decide +kernel
  have h2 : separateComponents row6 row6Start = [row6Start] := by
    have : (separateComponents row6 row6Start).map arrayList = [row6Start].map arrayList := by
      decide +kernel
    exact List.map_injective_iff.2 (fun _ _ h => arrayList_inj h) this
  unfold azpFit fitWith
  dsimp only
  rw [h1, Res.bind_ok, h2]
  change fitLoop row6 row6Attr _ [fun r => .ok (.array row6Start, r)] _ _ _ = _
  unfold fitLoop fitStep
  dsimp only
  rw [Res.bind_ok]
  dsimp only
  have h3 : azpComp (q := 0) (fun _ => 0) (centered manhattan meanRow listMax) fuel row6Idx
      (subAdj row6 row6Idx) row6Init (fun i => row6Attr (row6Idx.get i)) (.azp 0) circleTape =
        .timeout := by
    unfold azpComp azpComponent
    dsimp only
    rw [if_neg (by decide +kernel), if_neg (by decide +kernel)]
    have := azpOuter_endless (ops := row6Ops) (adj := subAdj row6 row6Idx) (fuel := fuel)
      (regions := uniqueSorted (arrayList row6Init)) circleState (d := -1/2) (by norm_num)
      (fun _ => rfl) (circle_any fuel) fuel none
      ((centered manhattan meanRow listMax).call row6Init fun i => row6Attr (row6Idx.get i)) rfl
    change (azpOuter row6Ops _ _ _ _ _ _ (circleState _) >>= _) = _
    change (azpOuter row6Ops _ _ _ _ _ ((centered manhattan meanRow listMax).call row6Init
      fun i => row6Attr (row6Idx.get i)) (circleState _) >>= _) = _
    rw [this]
    rfl
  exact congrArg (fun x : Res (Labels row6Idx.length × Strat 6 0 × Rng) =>
    (x >>= fun p => Res.ok (scatter row6Idx p.1 (fun _ => -1), p.2.1, p.2.2)) >>= fun p =>
      fitLoop row6 row6Attr (azpComp (fun _ => 0) (centered manhattan meanRow listMax) fuel) []
        p.1 p.2.1 p.2.2) h3

end Region.Props
