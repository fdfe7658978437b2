import Verif.SpecMemory
import Verif.Lemmas.Memory
import Verif.Props.AzpSa
/-
Property theorems C117-C119: the arrays of the caller.
-/
namespace Region.Props

open Region Spec

/-- The objective functions of the library. -/
inductive LibObjective (ρ : Type)
  | pairwise (metric : ρ → ρ → ℚ)
  | center (metric : ρ → ρ → ℚ) (center : List ρ → ρ) (reduction : List ℚ → ℚ)

/-- The objective function working on an array in memory. -/
def LibObjective.mem {ρ : Type} : LibObjective ρ → ObjectiveMem ρ
  | .pairwise metric => pairwiseMem metric
  | .center metric cent reduction => centeredMem metric cent reduction

/-- The objective function on values. -/
def LibObjective.val {ρ : Type} : LibObjective ρ → Objective ρ
  | .pairwise metric => Region.pairwise metric
  | .center metric cent reduction => centered metric cent reduction

theorem LibObjective.sim {ρ : Type} (w : LibObjective ρ) : ObjSim w.mem w.val := by
  cases w with
  | pairwise metric => exact pairwise_objSim metric
  | center metric cent reduction => exact centered_objSim metric cent reduction

theorem argument_holds {n : Nat} {M : Mem} {a : Option Addr} {L : Option (Labels n)} :
    Argument M a L ↔ HoldsArray M a L := by
  rcases a with _ | a <;> rcases L with _ | L <;> rfl

theorem none_of_length_le {M : Mem} {a : Addr} (h : M.length ≤ a) : M[a]? = none :=
  List.getElem?_eq_none h

theorem fitSim_spec {σ : Type} {n : Nat} {x : Py Mem (Addr × σ × Rng)} {y : Res (Labels n × σ × Rng)}
    {M : Mem} (h : FitSim x y M) :
    ArraysKept M (x M).2 ∧
    EndsLike (fun r s => r.2 = s.2 ∧ NewArray M (x M).2 r.1 (arrayList s.1)) (x M).1 y := by
  obtain ⟨h1, h2⟩ := h
  refine ⟨h1, ?_⟩
  unfold EndsLike
  rcases y with ⟨L, st, r⟩ | e | _
  · obtain ⟨a, h3, h4, h5⟩ := h2
    refine ⟨?_, fun e he => (by cases he), fun he => (by cases he)⟩
    rintro b ⟨⟩
    exact ⟨_, h4, rfl, none_of_length_le h3, h5⟩
  · exact ⟨fun b hb => (by cases hb), fun e' he => (by cases he; exact h2), fun he => (by cases he)⟩
  · exact ⟨fun b hb => (by cases hb), fun e' he => (by cases he), fun _ => h2⟩

theorem optOut_spec {α β : Type} {n : Nat} {L : β → Option (Labels n)} {R : Option Addr → β → α}
    {Q : Option Addr → Prop} {M : Mem} {z : Res α × Mem} {y : Res β} (h : OptOut L R Q M z y) :
    ArraysKept M z.2 ∧
    EndsLike (fun r s => ∃ a, r = R a s ∧ Argument z.2 a (L s) ∧ Q a) z.1 y := by
  obtain ⟨h1, h2⟩ := h
  refine ⟨h1, ?_⟩
  unfold EndsLike
  rcases y with b | e | _
  · obtain ⟨a, h3, h4, h5⟩ := h2
    refine ⟨?_, fun e he => (by cases he), fun he => (by cases he)⟩
    rintro b ⟨⟩
    exact ⟨_, h3, a, rfl, argument_holds.2 h4, h5⟩
  · exact ⟨fun b hb => (by cases hb), fun e' he => (by cases he; exact h2), fun he => (by cases he)⟩
  · exact ⟨fun b hb => (by cases hb), fun e' he => (by cases he), fun _ => h2⟩

/-! ### C117 -/

section
variable {n q : Nat} {ρ : Type} (w : LibObjective ρ) (o : MstOrder) (expf : ℚ → ℚ) (adj : Adj n)
  (attr : Fin n → ρ) (p : Int) (M : Mem) (initial : Option Addr) (init : Option (Labels n))
  (h : Argument M initial init) (rng : Rng)
include h

/-- C117, `AZP`: whatever the outcome of `fit`, every array that existed before has the same elements as before;
`fit` ends as the model on values says, and `labels_` is a new array with the labels of that model. -/
theorem c117_azp (fuel : Nat) (st : Strat n q) :
    ArraysKept M (azpFitMem o expf w.mem fuel adj attr p initial st rng M).2 ∧
    EndsLike (fun r s => r.2 = s.2 ∧
        NewArray M (azpFitMem o expf w.mem fuel adj attr p initial st rng M).2 r.1 (arrayList s.1))
      (azpFitMem o expf w.mem fuel adj attr p initial st rng M).1
      (azpFit o expf w.val fuel adj attr p init st rng) :=
  fitSim_spec (azpFit_sim w.sim o expf fuel adj attr p st rng (argument_holds.1 h))

/-- C117, `AZPBasicTabu`. -/
theorem c117_basic (fuel : Nat) (len : Option Nat) (reps : Int) (st : Strat n q) :
    ArraysKept M (basicTabuFitMem o expf w.mem fuel len reps adj attr p initial st rng M).2 ∧
    EndsLike (fun r s => r.2 = s.2 ∧
        NewArray M (basicTabuFitMem o expf w.mem fuel len reps adj attr p initial st rng M).2 r.1
          (arrayList s.1))
      (basicTabuFitMem o expf w.mem fuel len reps adj attr p initial st rng M).1
      (basicTabuFit o expf w.val fuel len reps adj attr p init st rng) :=
  fitSim_spec (basicTabuFit_sim w.sim o expf fuel len reps adj attr p st rng (argument_holds.1 h))

/-- C117, `AZPReactiveTabu`. -/
theorem c117_reactive (maxIt : Nat) (k1 k2 : Int) (self : ReactSelf (Strat n q)) :
    ArraysKept M (reactiveTabuFitMem o expf w.mem maxIt k1 k2 adj attr p initial self rng M).2 ∧
    EndsLike (fun r s => r.2 = s.2 ∧
        NewArray M (reactiveTabuFitMem o expf w.mem maxIt k1 k2 adj attr p initial self rng M).2 r.1
          (arrayList s.1))
      (reactiveTabuFitMem o expf w.mem maxIt k1 k2 adj attr p initial self rng M).1
      (reactiveTabuFit o expf w.val maxIt k1 k2 adj attr p init self rng) :=
  fitSim_spec (reactiveTabuFit_sim w.sim o expf maxIt k1 k2 adj attr p self rng (argument_holds.1 h))

end

/-- The four searches of the library as local search of `MaxPRegionsHeu`, in memory and on values. -/
inductive LibSearch {n q : Nat} {ρ : Type} (w : LibObjective ρ) (o : MstOrder) (expf : ℚ → ℚ)
    (adj : Adj n) (attr : Fin n → ρ) :
    (ς : Type) → LocalSearchMem ς n q → LocalSearch ς n q → Prop
  | azp (fuel : Nat) : LibSearch w o expf adj attr (Strat n q) (azpSearchMem o expf w.mem fuel adj attr)
      (azpSearch o expf w.val fuel adj attr)
  | basic (fuel : Nat) (len : Option Nat) (reps : Int) : LibSearch w o expf adj attr (Strat n q)
      (basicTabuSearchMem o expf w.mem fuel len reps adj attr)
      (basicTabuSearch o expf w.val fuel len reps adj attr)
  | reactive (maxIt : Nat) (k1 k2 : Int) : LibSearch w o expf adj attr (ReactSelf (Strat n q))
      (reactiveTabuSearchMem o expf w.mem maxIt k1 k2 adj attr)
      (reactiveTabuSearch o expf w.val maxIt k1 k2 adj attr)
  | annealing (f1 f2 f3 : Nat) (P : SaParams) : LibSearch w o expf adj attr SaObj
      (saSearchMem o expf w.mem f1 f2 f3 P adj attr) (saSearch o expf w.val f1 f2 f3 P adj attr)

theorem LibSearch.sim {n q : Nat} {ρ : Type} {w : LibObjective ρ} {o : MstOrder} {expf : ℚ → ℚ}
    {adj : Adj n} {attr : Fin n → ρ} {ς : Type} {ls' : LocalSearchMem ς n q} {ls : LocalSearch ς n q}
    (h : LibSearch w o expf adj attr ς ls' ls) : SearchSim ls' ls := by
  cases h with
  | azp fuel => exact azpSearch_sim w.sim o expf fuel adj attr
  | basic fuel len reps => exact basicTabuSearch_sim w.sim o expf fuel len reps adj attr
  | reactive maxIt k1 k2 => exact reactiveTabuSearch_sim w.sim o expf maxIt k1 k2 adj attr
  | annealing f1 f2 f3 P => exact saSearch_sim w.sim o expf f1 f2 f3 P adj attr

/-- C117, `MaxPRegionsHeu` with any of the four searches: every array that existed before has the same elements as
before, `fit` ends as the model on values says, and what is assigned to `labels_` is a new array with the
labels of that model. -/
theorem c117_maxp {n q : Nat} {ρ : Type} (w : LibObjective ρ) (o : MstOrder) (expf : ℚ → ℚ) (adj : Adj n)
    (attr : Fin n → ρ) {ς : Type} {ls' : LocalSearchMem ς n q} {ls : LocalSearch ς n q}
    (hls : LibSearch w o expf adj attr ς ls' ls) (metric : ρ → ρ → ℚ) (spat : Fin n → Fin q → ℚ)
    (thr : Fin q → ℚ) (maxIt : Nat) (st : ς) (rng : Rng) (M : Mem) :
    ArraysKept M (maxpFitMem ls' metric w.mem adj attr spat thr maxIt st rng M).2 ∧
    EndsLike (fun r s => r.1 = s.1 ∧ r.2.2 = s.2.2 ∧ r.2.1.isSome = s.2.1.isSome ∧
        ∀ a L, r.2.1 = some a → s.2.1 = some L →
          NewArray M (maxpFitMem ls' metric w.mem adj attr spat thr maxIt st rng M).2 a (arrayList L))
      (maxpFitMem ls' metric w.mem adj attr spat thr maxIt st rng M).1
      (maxpFit ls metric w.val adj attr spat thr maxIt st rng) := by
  obtain ⟨h1, h2, h3, h4⟩ := optOut_spec
    (maxpFit_sim attr hls.sim w.sim metric adj spat thr maxIt st rng M)
  refine ⟨h1, fun s hs => ?_, h3, h4⟩
  obtain ⟨r, hr, a, rfl, h5, h6⟩ := h2 s hs
  refine ⟨_, hr, rfl, rfl, ?_, ?_⟩
  · dsimp only
    rcases a with _ | a <;> rcases hL : s.2.1 with _ | L <;> rw [hL] at h5 <;> first | rfl | exact h5.elim
  · intro b L hb hL
    dsimp only at hb
    subst hb
    rw [hL] at h5
    exact ⟨none_of_length_le (h6 b rfl), h5⟩

/-- A run on the path of four areas, which moves an area: the arrays of the caller are as before, and `labels_` is
the first of the three arrays `fit` makes. -/
example : (match azpFitMem (q := 0) .rowMajor (fun _ => 0) (pairwiseMem manhattan) 20 path4
        (column ![0, 1, 8, 9]) 2 (some 1) (.azp 0) (fun _ => 0) [[7, 7], [0, 1, 1, 1]] with
      | (.ok (a, _), M) => (some a, M) | (_, M) => (none, M)) =
    (some 2, [[7, 7], [0, 1, 1, 1], [0, 0, 1, 1], [0, 1, 1, 1], [0, 0, 1, 1]]) := by
  decide +kernel

/-- The tabu searches on the same map. -/
example :
    (match basicTabuFitMem (q := 0) .rowMajor (fun _ => 0) (centeredMem manhattan meanRow List.sum) 20
        (some 1) 3 path4 (column ![0, 1, 8, 9]) 2 (some 1) (.azp 0) (fun _ => 0)
        [[7, 7], [0, 1, 1, 1]] with
      | (.ok (a, _), M) => (some a, M.take 3) | (_, M) => (none, M)) =
      (some 2, [[7, 7], [0, 1, 1, 1], [0, 0, 1, 1]]) ∧
    (match reactiveTabuFitMem (q := 0) .rowMajor (fun _ => 0) (centeredMem manhattan meanRow List.sum) 20
        5 5 path4 (column ![0, 1, 8, 9]) 2 (some 1) (.fresh (.azp 0)) (fun _ => 0)
        [[7, 7], [0, 1, 1, 1]] with
      | (.ok (a, _), M) => (some a, M.take 3) | (_, M) => (none, M)) =
      (some 2, [[7, 7], [0, 1, 1, 1], [0, 0, 1, 1]]) := by
  decide +kernel

/-- A run of the max-p heuristic with two rounds of construction. -/
example :
    (match maxpFitMem (azpSearchMem .rowMajor (fun _ => 0) (pairwiseMem manhattan) 20 path4 (ramp 4))
        manhattan (pairwiseMem manhattan) path4 (ramp 4) (fun _ (_ : Fin 1) => 1) (fun _ => 2) 2 (.azp 0)
        (fun i => if i < 3 then 1 else 0) [[7, 7]] with
      | (.ok (p, some a, _), M) => (p, M[0]?, M[a]?) | _ => (0, none, none)) =
      (2, some [7, 7], some [0, 0, 1, 1]) := by
  decide +kernel

/-! ### C118 -/

/-- C118, restricted: `AZPSimulatedAnnealing.fit` changes no array that existed before and ends as the model on values
says.  If `nonmoving_steps_before_stop` and `max_iterations` are positive, `labels_` is a new array.  Otherwise no
clustering takes place and `labels_` is the object passed as `initial_labels`. -/
theorem c118_annealing_partial {n : Nat} {ρ : Type} (w : LibObjective ρ) (o : MstOrder) (expf : ℚ → ℚ)
    (f1 f2 f3 : Nat) (P : SaParams) (self : SaObj) (adj : Adj n) (attr : Fin n → ρ) (p : Int) (M : Mem)
    (initial : Option Addr) (init : Option (Labels n)) (h : Argument M initial init) (cooling : ℚ)
    (rng : Rng) :
    ArraysKept M (saFitMem o expf w.mem f1 f2 f3 P self adj attr p initial cooling rng M).2 ∧
    EndsLike (fun r s => r.2 = s.2 ∧
        Argument (saFitMem o expf w.mem f1 f2 f3 P self adj attr p initial cooling rng M).2 r.1 s.1 ∧
        (0 < P.nonmovingSteps ∧ (∀ m, P.maxIt = some m → 0 < m) → ∃ a, r.1 = some a ∧ M[a]? = none) ∧
        (¬ (0 < P.nonmovingSteps ∧ ∀ m, P.maxIt = some m → 0 < m) → r.1 = initial))
      (saFitMem o expf w.mem f1 f2 f3 P self adj attr p initial cooling rng M).1
      (saFit o expf w.val f1 f2 f3 P self adj attr p init cooling rng) := by
  have hb : belowMax 0 P.maxIt = true ↔ ∀ m, P.maxIt = some m → 0 < m := by
    cases hm : P.maxIt <;> simp [belowMax]
  obtain ⟨h1, h2, h3, h4⟩ := optOut_spec
    (saFit_sim w.sim o expf f1 f2 f3 P self adj attr p cooling rng (argument_holds.1 h))
  refine ⟨h1, fun s hs => ?_, h3, h4⟩
  obtain ⟨r, hr, a, rfl, h5, h6, h7⟩ := h2 s hs
  rw [hb] at h6 h7
  refine ⟨_, hr, rfl, h5, fun c => ?_, h7⟩
  obtain ⟨x, hx, hx'⟩ := h6 c
  exact ⟨x, hx, none_of_length_le hx'⟩

/-- C118: the result may be the caller's array: with `max_iterations=0` (or `nonmoving_steps_before_stop=0`), after
which `labels_` changes whenever the caller changes the array. -/
theorem c118_shared :
    (match (saFitMem .rowMajor (fun _ => 0) (pairwiseMem manhattan) 5 5 5 ⟨1, some 0, .int 3, 3, 5⟩ .fresh
        path4 (ramp 4) 2 (some 0) (1/2) (fun _ => 0) [[0, 0, 1, 1]]).1 with
      | .ok (a, _) => some a | _ => none) = some (some 0) ∧
    (match (saFitMem .rowMajor (fun _ => 0) (pairwiseMem manhattan) 5 5 5 ⟨1, none, .int 3, 0, 5⟩ .fresh
        path4 (ramp 4) 2 (some 0) (1/2) (fun _ => 0) [[0, 0, 1, 1]]).1 with
      | .ok (a, _) => some a | _ => none) = some (some 0) := by
  decide +kernel

/-- With the usual parameters the result is another array. -/
example : (match (saFitMem .rowMajor (fun _ => 0) (pairwiseMem manhattan) 20 5 30 saDemo .fresh path4
        (ramp 4) 2 (some 0) (1/2) (fun _ => 0) [[0, 1, 1, 1]]) with
      | (.ok (some a, _), M) => (a, M[0]?, M[a]?) | _ => (0, none, none)) =
    (13, some [0, 1, 1, 1], some [0, 0, 1, 1]) := by
  decide +kernel

/-! ### C119 -/

theorem intraregional_eq_none {ρ : Type} {metric : ρ → ρ → ℚ} {cent : List ρ → ρ}
    {reduction : List ℚ → ℚ} {k : Nat} {L : Labels k} {r : Int} {attr : Fin k → ρ} :
    intraregional metric cent reduction L r attr = none ↔ ∀ i, L i ≠ r := by
  unfold intraregional
  dsimp only
  split_ifs with h <;> rw [List.map_eq_nil_iff, whereEq_eq_nil] at h
  · exact ⟨fun _ => h, fun _ => rfl⟩
  · exact ⟨fun c => (by cases c), fun c => absurd c h⟩

/-- C119, exactly: what `ObjectiveFunctionCenter.update` leaves in the array it is given.  The array is as it
was, unless the area is the only one of its region and is moved to another region that has areas: then `update`
raises, and the area has been moved. -/
theorem c119_update_partial {ρ : Type} (metric : ρ → ρ → ℚ) (cent : List ρ → ρ)
    (reduction : List ℚ → ℚ) {k : Nat} (a : Fin k) (r : Int) (p : Addr) (L : Labels k)
    (attr : Fin k → ρ) (M : Mem) (h : M[p]? = some (arrayList L)) :
    (((∃ i, L i = r) ∧ r ≠ L a ∧ ∀ i, L i = L a → i = a) →
      (∃ e, ((centeredMem metric cent reduction).update a r p attr M).1 = .raise e) ∧
      ((centeredMem metric cent reduction).update a r p attr M).2 = M.set p (arrayList (moved L a r))) ∧
    (¬ ((∃ i, L i = r) ∧ r ≠ L a ∧ ∀ i, L i = L a → i = a) →
      ((centeredMem metric cent reduction).update a r p attr M).2 = M) := by
  have hmv : makeMove a r L = moved L a r := rfl
  obtain ⟨d1, h1⟩ : ∃ d, intraregional metric cent reduction L (L a) attr = some d := by
    rw [← Option.ne_none_iff_exists', Ne, intraregional_eq_none]
    exact fun c => c a rfl
  have hx : (centeredMem metric cent reduction).update a r p attr M =
      (do
        let d2 ← Py.lift (orEmptyArray (intraregional metric cent reduction L r attr))
        Mem.setItem p a r
        let labels ← Mem.view k p
        let d3 ← Py.lift (orEmptyArray (intraregional metric cent reduction labels (L a) attr))
        let d4 ← Py.lift (orEmptyArray (intraregional metric cent reduction labels r attr))
        Mem.setItem p a (L a)
        pure (reduction [d3, d4] - reduction [d1, d2]) : Py Mem ℚ) M := by
    show (Mem.view k p >>= _) M = _
    rw [Py.bind_eq (view_eq h), h1]
    rfl
  rw [hx]
  clear hx
  cases h2 : intraregional metric cent reduction L r attr with
  | none =>
    have h2' := intraregional_eq_none.1 h2
    refine ⟨fun c => ?_, fun _ => ?_⟩
    · obtain ⟨⟨i, hi⟩, -⟩ := c
      exact absurd hi (h2' i)
    · rw [Py.bind_eq_raise (x := Py.lift (orEmptyArray none)) (t := M) rfl]
  | some d2 =>
    have hr : ∃ i, L i = r := by
      by_contra c
      push Not at c
      rw [intraregional_eq_none.2 c] at h2
      cases h2
    have hset := setItem_eq h a r
    have hhere := getElem?_set_here h (arrayList (makeMove a r L))
    have hx : (do
        let d2 ← Py.lift (orEmptyArray (some d2))
        Mem.setItem p a r
        let labels ← Mem.view k p
        let d3 ← Py.lift (orEmptyArray (intraregional metric cent reduction labels (L a) attr))
        let d4 ← Py.lift (orEmptyArray (intraregional metric cent reduction labels r attr))
        Mem.setItem p a (L a)
        pure (reduction [d3, d4] - reduction [d1, d2]) : Py Mem ℚ) M =
      (do
        let d3 ← Py.lift (orEmptyArray (intraregional metric cent reduction (makeMove a r L) (L a) attr))
        let d4 ← Py.lift (orEmptyArray (intraregional metric cent reduction (makeMove a r L) r attr))
        Mem.setItem p a (L a)
        pure (reduction [d3, d4] - reduction [d1, d2]) : Py Mem ℚ)
          (M.set p (arrayList (makeMove a r L))) := by
      rw [Py.bind_eq (x := Py.lift (orEmptyArray (some d2))) (t := M) (a := d2) rfl, Py.bind_eq hset, Py.bind_eq (view_eq hhere)]
    rw [hx]
    clear hx
    cases h3 : intraregional metric cent reduction (makeMove a r L) (L a) attr with
    | none =>
      have h3' := intraregional_eq_none.1 h3
      rw [Py.bind_eq_raise (x := Py.lift (orEmptyArray none)) (t := M.set p (arrayList (makeMove a r L)))
        (e := .valueError "Found array with 0 sample(s)") rfl]
      refine ⟨fun _ => ⟨⟨_, rfl⟩, by rw [hmv]⟩, fun c => absurd ⟨hr, ?_, fun i hi => ?_⟩ c⟩
      · intro c
        have := h3' a
        simp [makeMove, c] at this
      · by_contra hia
        have := h3' i
        simp [makeMove, hia, hi] at this
    | some d3 =>
      have h3' : ¬ (r ≠ L a ∧ ∀ i, L i = L a → i = a) := by
        rintro ⟨c1, c2⟩
        have : intraregional metric cent reduction (makeMove a r L) (L a) attr = none := by
          rw [intraregional_eq_none]
          intro i
          unfold makeMove
          split_ifs with hi
          · exact c1
          · exact fun c => hi (c2 i c)
        rw [this] at h3
        cases h3
      obtain ⟨d4, h4⟩ : ∃ d, intraregional metric cent reduction (makeMove a r L) r attr = some d := by
        rw [← Option.ne_none_iff_exists', Ne, intraregional_eq_none]
        exact fun c => c a (by simp [makeMove])
      refine ⟨fun c => absurd c.2 h3', fun _ => ?_⟩
      rw [h4, Py.bind_eq (x := Py.lift (orEmptyArray (some d3)))
          (t := M.set p (arrayList (makeMove a r L))) (a := d3) rfl,
        Py.bind_eq (x := Py.lift (orEmptyArray (some d4)))
          (t := M.set p (arrayList (makeMove a r L))) (a := d4) rfl,
        Py.bind_eq (setItem_eq hhere a (L a)), makeMove_back]
      show (M.set p _).set p _ = M
      rw [List.set_set]
      obtain ⟨hp, hv⟩ := List.getElem?_eq_some_iff.1 h
      rw [← hv, List.set_getElem_self]

/-- C119: an array changed by a failing `update`: the only area of region 0 is moved to region 1. -/
theorem c119_changed :
    ((centeredMem manhattan meanRow List.sum).update (k := 3) 0 1 0 (ramp 3) [[0, 1, 1]]).2 = [[1, 1, 1]] := by
  decide +kernel

/-- `update` with an area that is not alone changes nothing. -/
example : ((centeredMem manhattan meanRow List.sum).update (k := 3) 1 0 0 (ramp 3) [[0, 1, 1]]).2 =
    [[0, 1, 1]] := by
  decide +kernel

end Region.Props
