import Verif.Model.Construct
import Verif.Lemmas.Adapters
import Verif.Lemmas.Islands
import Verif.Props.AzpSa
import Verif.Props.AzpTabu
import Verif.Props.Networkx
import Verif.Props.Options
/-
Property theorems C90: what is rejected, and how; C91: components with nothing to do.
-/
namespace Region.Props

open Region Spec

variable {κ : Type} [LinearOrder κ]

/-! ### C90: constructors -/

/-- C90: `AZP(allow_move_strategy)` accepts `None` and strategies, and stores the strategy given. -/
theorem c90_azp {n q : Nat} (arg : StrategyArg (Strat n q)) :
    (∀ s, arg = .strategy s → newAzpStrategy arg = .ok s) ∧
    (arg = .none → ∃ v, newAzpStrategy arg = .ok (.azp v)) ∧
    (arg = .other → newAzpStrategy arg = .raise (.valueError
      "The allow_move_strategy argument must be either None, or an instance of AllowMoveStrategy.")) := by
  refine ⟨?_, ?_, ?_⟩
  · rintro s rfl; rfl
  · rintro rfl; exact ⟨_, rfl⟩
  · rintro rfl; rfl

/-- C90: only callables become observers, all of them are called, in the order of registration. -/
theorem c90_observers {τ : Type} (observers : List (τ → τ)) (arg : ObserverArg (τ → τ)) :
    (arg = .other → registerObserver observers arg =
      .raise (.valueError "The observer_func must be callable.")) ∧
    ∀ f, arg = .callable f → ∃ new, registerObserver observers arg = .ok new ∧
      ∀ t, notifyObservers new t = f (notifyObservers observers t) := by
  constructor
  · rintro rfl; rfl
  · rintro f rfl
    exact ⟨_, rfl, fun t => by simp [notifyObservers]⟩

example : (registerObserver [fun b : Bool × Bool => (true, b.2)] (.callable fun b => (b.1, b.1)) >>=
    fun l => .ok (notifyObservers l (false, false))) = .ok (true, true) := by rfl

/-- C90: `AZPSimulatedAnnealing(init_temperature, …)` needs an initial temperature; it keeps all its
arguments as they are. -/
theorem c90_sa_temperature (t : Option ℚ) (maxIt : Option Int) (term : PyNum) (steps reps : Int) :
    (t = none → newSaParams t maxIt term steps reps = .raise .notImplementedError) ∧
    ∀ t', t = some t' → ∃ P, newSaParams t maxIt term steps reps = .ok P ∧
      P.initTemperature = t' ∧ P.maxIt = maxIt ∧ P.saMovesTerm = term ∧ P.nonmovingSteps = steps ∧
      P.repsBeforeTermination = reps := by
  constructor
  · rintro rfl; rfl
  · rintro t' rfl; exact ⟨_, rfl, rfl, rfl, rfl, rfl, rfl⟩

/-- C90: `sa_moves_term` must be a positive integer; a new strategy has the given temperature and has
not seen any move. -/
theorem c90_sa_moves_term {n q : Nat} (t : ℚ) (term : PyNum) :
    (∀ i : Nat, 0 < i → term = .int i →
      ∃ v, newSaStrategy (n := n) (q := q) t term = .ok (.sa t i 0 v false false)) ∧
    ((∀ i : Nat, 0 < i → term ≠ .int i) → newSaStrategy (n := n) (q := q) t term =
      .raise (.valueError "The sa_moves_term argument must be a positive integer.")) := by
  constructor
  · rintro i hi rfl
    refine ⟨0, ?_⟩
    have : ¬ (i : Int) < 1 := by omega
    simp [newSaStrategy, this]
  · intro h
    cases term with
    | nonIntegral => rfl
    | int i =>
      have : i < 1 := by
        by_contra hi
        exact h i.toNat (by omega) (by rw [Int.toNat_of_nonneg (by omega)])
      simp [newSaStrategy, this]

/-- C90: a cooling factor outside (0, 1) is rejected before anything else; one inside never is. -/
theorem c90_cooling {n : Nat} {ρ : Type} (o : MstOrder) (expf : ℚ → ℚ) (obj : Objective ρ)
    (f1 f2 f3 : Nat) (P : SaParams) (self : SaObj) (adj : Adj n) (attr : Fin n → ρ) (p : Int)
    (initial : Option (Labels n)) (cooling : ℚ) (rng : Rng) (h : cooling ≤ 0 ∨ 1 ≤ cooling) :
    saFit o expf obj f1 f2 f3 P self adj attr p initial cooling rng =
      .raise (.valueError "The cooling_factor argument must be greater than 0 and less than 1") := by
  unfold saFit
  rw [if_pos (by rintro ⟨h1, h2⟩; rcases h with h | h <;> linarith)]

/-- C90: `AZPBasicTabu(tabu_length)` rejects negative lengths. -/
theorem c90_tabu_length (l : Option Int) :
    (l = none → newTabuLength l = .ok none) ∧
    (∀ i : Nat, l = some (i : Int) → newTabuLength l = .ok (some i)) ∧
    (∀ i : Int, i < 0 → l = some i →
      newTabuLength l = .raise (.valueError "maxlen must be non-negative")) := by
  refine ⟨?_, ?_, ?_⟩
  · rintro rfl; rfl
  · rintro i rfl
    have : ¬ (i : Int) < 0 := by omega
    simp [newTabuLength, this]
  · rintro i hi rfl
    simp [newTabuLength, hi]

/-- C90: `AZPReactiveTabu(max_iterations, …)` rejects numbers that are not positive. -/
theorem c90_max_iterations (m : Int) :
    (0 < m → ∃ k : Nat, newReactMaxIt m = .ok k ∧ (k : Int) = m) ∧
    (m ≤ 0 → newReactMaxIt m =
      .raise (.valueError "The `max_iterations` argument must be > 0.")) := by
  constructor
  · intro h
    exact ⟨m.toNat, by simp [newReactMaxIt, not_le.2 h], by omega⟩
  · intro h
    simp [newReactMaxIt, h]

/-- C90: without initial labels and without any permitted iteration, annealing has no solution to
count: `TypeError`. -/
theorem c90_sa_no_iterations {n : Nat} {ρ : Type} (o : MstOrder) (expf : ℚ → ℚ) (obj : Objective ρ)
    (f1 f2 f3 : Nat) (t : ℚ) (m : Int) (i : Nat) (steps reps : Int) (self : SaObj) (adj : Adj n)
    (attr : Fin n → ρ) (p : Int) (cooling : ℚ) (rng : Rng) (hc : 0 < cooling ∧ cooling < 1)
    (hm : m ≤ 0) (hi : 0 < i) (hs : 0 < steps) :
    saFit o expf obj (f1 + 1) f2 f3 ⟨t, some m, .int i, steps, reps⟩ self adj attr p none cooling rng =
      .raise .typeError := by
  obtain ⟨v, hv⟩ := (c90_sa_moves_term (n := n) (q := 0) t (.int i)).1 i hi rfl
  have hb : belowMax 0 (some m) = false := by simp [belowMax, hm]
  unfold saFit
  rw [if_neg (by simpa using hc)]
  simp only [hv, Res.bind_ok]
  unfold saOuter
  have hs' : ((0 : Nat) : Int) < steps := by simpa using hs
  rw [if_pos hs']
  dsimp only
  unfold saInner
  simp [hb]

example : saFit .rowMajor (fun _ => 0) (pairwise manhattan) 5 5 5 ⟨1, some 0, .int 3, 3, 5⟩ .fresh path4
    (ramp 4) 2 none (1/2) (fun _ => 0) = .raise .typeError :=
  c90_sa_no_iterations _ _ _ 4 5 5 1 0 3 3 5 _ _ _ _ _ _ ⟨by norm_num, by norm_num⟩ le_rfl (by omega)
    (by omega)

/-! ### C90: adapters -/

/-- C90: a dict mixing numbers with sequences is rejected; which exception it is depends on the value
of the first key. -/
theorem c90_mixed_values (d : Dict κ Val) (k₀ : κ) (ks : List κ)
    (hk : ∀ k ∈ k₀ :: ks, IsKey d k) :
    ((∃ l, Item d k₀ (.seq l)) → (∃ k ∈ ks, ∃ q, Item d k (.num q)) →
      arrayFromDictValues d (some (k₀ :: ks)) = .raise .typeError) ∧
    ((∃ q, Item d k₀ (.num q)) → (∃ k ∈ ks, ∃ l, Item d k (.seq l)) →
      arrayFromDictValues d (some (k₀ :: ks)) =
        .raise (.valueError "setting an array element with a sequence.")) := by
  have h1 : ∀ ks : List κ, (∀ k ∈ ks, IsKey d k) → (∃ k ∈ ks, ∃ q, Item d k (.num q)) →
      chainValues d (id : ℚ → ℚ) ks = .raise .typeError := by
    intro ks
    induction ks with
    | nil => rintro - ⟨k, h, -⟩; cases h
    | cons k ks ih =>
      rintro hk ⟨k', hk', q, hq⟩
      obtain ⟨v, hv⟩ := hk k (by simp)
      unfold chainValues
      rw [get_of_item hv, Res.bind_ok]
      cases v with
      | num _ => rfl
      | seq l =>
        rcases List.mem_cons.1 hk' with rfl | h'
        · exfalso
          have := get_of_item hv
          rw [get_of_item hq] at this
          cases this
        · simp [ih (fun k h => hk k (by simp [h])) ⟨k', h', q, hq⟩]
  have h2 : ∀ ks : List κ, (∀ k ∈ ks, IsKey d k) → (∃ k ∈ ks, ∃ l, Item d k (.seq l)) →
      plainValues d (id : ℚ → ℚ) ks =
        .raise (.valueError "setting an array element with a sequence.") := by
    intro ks
    induction ks with
    | nil => rintro - ⟨k, h, -⟩; cases h
    | cons k ks ih =>
      rintro hk ⟨k', hk', q, hq⟩
      obtain ⟨v, hv⟩ := hk k (by simp)
      unfold plainValues
      rw [get_of_item hv, Res.bind_ok]
      cases v with
      | seq _ => rfl
      | num l =>
        rcases List.mem_cons.1 hk' with rfl | h'
        · exfalso
          have := get_of_item hv
          rw [get_of_item hq] at this
          cases this
        · simp [ih (fun k h => hk k (by simp [h])) ⟨k', h', q, hq⟩]
  constructor
  · rintro ⟨l, hl⟩ ⟨k, hk', q, hq⟩
    simp [arrayFromDictValues, flatFromDictValues, get_of_item hl,
      h1 (k₀ :: ks) hk ⟨k, by simp [hk'], q, hq⟩]
  · rintro ⟨l, hl⟩ ⟨k, hk', q, hq⟩
    simp [arrayFromDictValues, flatFromDictValues, get_of_item hl,
      h2 (k₀ :: ks) hk ⟨k, by simp [hk'], q, hq⟩]

example : arrayFromDictValues (⟨[(0, .seq [1]), (1, .num 2)], by decide⟩ : Dict Nat Val)
    (some [0, 1]) = .raise .typeError := by
  refine (c90_mixed_values _ 0 [1] ?_).1 ⟨[1], by simp [Item]⟩ ⟨1, by simp, 2, by simp [Item]⟩
  intro k hk
  simp only [List.mem_cons, List.not_mem_nil, or_false] at hk
  rcases hk with rfl | rfl
  · exact ⟨.seq [1], by simp [Item]⟩
  · exact ⟨.num 2, by simp [Item]⟩

/-- C90: arguments of the wrong type. -/
theorem c90_wrong_type {φ : Type} (g : Graph κ) (hg : g.nodes ≠ []) (labels : Option (GraphAttr κ))
    (spat : GraphAttr κ) (df : Frame κ) (shown : String) (attr spatd : Option (Dict κ Val)) :
    arrayFromGraph g .other = .raise .typeError ∧
    (let msg := "The `attr` argument must be a string, a list of strings or a dictionary."
     azpFromNetworkx g .other labels = .raise (.valueError msg) ∧
     maxpFromNetworkx g .other spat = .raise (.valueError msg)) ∧
    dataframeToDict df .mixed = .raise .keyError ∧ dataframeToDict df .other = .raise .keyError ∧
    getMetricFunction (φ := φ) .other =
      .raise (.valueError "Please pass a string or a function instead.") ∧
    exactFromDict (κ := κ) none attr =
      .raise (.valueError "The neighbors_dict argument must be dict.") ∧
    maxpFromDict (κ := κ) shown none attr spatd =
      .raise (.valueError "The neighbors_dict argument must be dict.") := by
  refine ⟨rfl, ⟨?_, ?_⟩, rfl, rfl, rfl, rfl, rfl⟩
  · simp [azpFromNetworkx, Graph.sparse, hg, arrayFromGraphOrDict]
  · simp [maxpFromNetworkx, Graph.sparse, hg, arrayFromGraphOrDict]

/-- C90: a graph without nodes is rejected whatever the attributes are. -/
theorem c90_empty_graph (g : Graph κ) (hg : g.nodes = []) (attr spat : GraphAttr κ)
    (labels : Option (GraphAttr κ)) :
    azpFromNetworkx g attr labels = .raise (.exception "Graph has no nodes or edges") ∧
    maxpFromNetworkx g attr spat = .raise (.exception "Graph has no nodes or edges") := by
  simp [azpFromNetworkx, maxpFromNetworkx, Graph.sparse, hg]

/-- C90: fewer rows of attributes than areas raise `IndexError`. -/
theorem c90_too_few_rows (c : SparseCall) (o : MstOrder) (expf : ℚ → ℚ) (obj : Objective (List ℚ))
    (fuel : Nat) (p : Int) (rng : Rng) (hl : c.labels = none) (h : c.attr.length < c.n) :
    c.azp o expf obj fuel p rng = .raise .indexError := by
  have h' : ¬ c.n ≤ c.attr.length := by omega
  unfold SparseCall.azp rowsFor
  rw [hl, dif_neg h']
  rfl

/-- C90: what the networkx adapter of AZP passes on has no spatially extensive attribute, and the
labels only if labels were given. -/
theorem c90_networkx_call (g : Graph κ) (attr : GraphAttr κ) (labels : Option (GraphAttr κ))
    {c : SparseCall} (h : azpFromNetworkx g attr labels = .ok c) :
    c.n = g.nodes.length ∧ c.spat = none ∧ (c.labels = none ↔ labels = none) ∧
      arrayFromGraphOrDict g attr = .ok c.attr := by
  unfold azpFromNetworkx at h
  obtain ⟨adj, -, h⟩ := Res.bind_eq_ok.1 h
  obtain ⟨arr, ha, h⟩ := Res.bind_eq_ok.1 h
  cases labels with
  | none => cases h; exact ⟨rfl, rfl, by simp, ha⟩
  | some l =>
    obtain ⟨arr', -, h⟩ := Res.bind_eq_ok.1 h
    cases h
    exact ⟨rfl, rfl, by simp, ha⟩

/-! ### C91: nothing to do -/

/-- C91: a component with a single region is returned as it is, at once: no iteration of any loop, no
random number, no change of the object. -/
theorem c91_single_region {σ ρ : Type} {k : Nat} (ops : StratOps σ k) (obj : Objective ρ)
    (attr : Fin k → ρ) (adj : Adj k) (init : Labels k) (hk : 0 < k) (h1 : ∀ i j, init i = init j)
    (strat : σ) (rng : Rng) :
    azpComponent ops adj 0 init strat rng = .ok (init, strat, rng) ∧
    (∀ len reps, basicComponent ops obj attr adj len reps 0 init strat rng = .ok (init, strat, rng)) ∧
    (∀ k1 k2 self, reactComponentList ops obj attr adj 0 k1 k2 init self =
      .ok (arrayList init, self)) := by
  have hu : (uniqueSorted (arrayList init)).length = 1 := by
    rw [length_uniqueSorted, Finset.card_eq_one]
    refine ⟨init ⟨0, hk⟩, ?_⟩
    ext x
    simp only [List.mem_toFinset, mem_arrayList, Finset.mem_singleton]
    exact ⟨fun ⟨i, hi⟩ => by rw [← hi]; exact h1 _ _, fun hx => ⟨_, hx.symm⟩⟩
  refine ⟨?_, fun _ _ => ?_, fun _ _ _ => ?_⟩
  · simp [azpComponent, hu]
  · simp [basicComponent, hu]
  · simp [reactComponentList, hu]

/-- C91: a contiguous clustering has at most one way to have as many regions as there are islands: the
regions are the islands. -/
theorem c91_regions_are_islands {n : Nat} {α : Type} [DecidableEq α] {adj : Adj n} {isl : Fin n → α}
    (hi : Separates isl adj) {L : Labels n} (h : Feasible adj L (numRegions isl)) :
    Separates L adj :=
  separates_of_feasible hi h.1 h.2

/-- C91: asked for as many regions as there are islands, every AZP variant returns the islands, without
a single iteration and for every strategy; initial labels are returned as they are. -/
theorem c91_islands {n q : Nat} {ρ : Type} (o : MstOrder) (expf : ℚ → ℚ) (obj : Objective ρ)
    {adj : Adj n} (attr : Fin n → ρ) {α : Type} [DecidableEq α] {isl : Fin n → α}
    (hi : Separates isl adj) (initial : Option (Labels n))
    (hstart : match initial with
      | some init => Feasible adj init (numRegions isl) ∧ ∀ v, init v ≠ -1
      | none => 2 ≤ numRegions isl)
    (st : Strat n q) (rng : Rng) :
    let Good := fun L : Labels n => Separates L adj ∧ ∀ init, initial = some init → L = init
    (∃ L st' rng', azpFit o expf obj 0 adj attr (numRegions isl) initial st rng =
      .ok (L, st', rng') ∧ Good L) ∧
    (∀ len reps, ∃ L st' rng', basicTabuFit o expf obj 0 len reps adj attr (numRegions isl) initial st
      rng = .ok (L, st', rng') ∧ Good L) ∧
    (∀ k1 k2 (self : ReactSelf (Strat n q)), ∃ L self' rng', reactiveTabuFit o expf obj 0 k1 k2 adj attr (numRegions isl) initial
      self rng = .ok (L, self', rng') ∧ Good L) := by
  have hstart' : match (generalizing := false) initial with
      | some init => AllContiguous adj init ∧ numRegions init = numRegions isl ∧ ∀ v, init v ≠ -1
      | none => 0 < n ∧ numRegions isl ≠ 1 := by
    cases initial with
    | some init => exact ⟨hstart.1.1, hstart.1.2, hstart.2⟩
    | none =>
      refine ⟨?_, by dsimp only at hstart; omega⟩
      rcases Nat.eq_zero_or_pos n with rfl | h
      · exfalso
        dsimp only at hstart
        simp [numRegions] at hstart
      · exact h
  have hgood : ∀ L, StartsFrom adj (numRegions isl : Nat) initial L →
      ∀ init, initial = some init → L = init := by
    rintro L hL init rfl
    exact hL.2.2
  refine ⟨?_, fun len reps => ?_, fun k1 k2 self => ?_⟩
  · obtain ⟨L, st', rng', h, h1, h2, -⟩ := fitWith_islands o attr (comp := azpComp expf obj 0)
      (fun _ => True) (fun idx a init att st rng hk h1 _ =>
        ⟨_, (c91_single_region _ obj att a init hk h1 _ rng).1, trivial⟩) hi initial hstart' (st := st)
      trivial rng
    exact ⟨L, st', rng', h, h2, hgood L h1⟩
  · obtain ⟨L, st', rng', h, h1, h2, -⟩ := fitWith_islands o attr (comp := fun idx a init at' st rng =>
        basicComponent (Strat.ops expf (fun i => idx.get i) at' obj) obj at' a len reps 0 init
          (st.start (obj.call init at')) rng)
      (fun _ => True) (fun idx a init att st rng hk h1 _ =>
        ⟨_, (c91_single_region _ obj att a init hk h1 _ rng).2.1 len reps, trivial⟩) hi initial hstart'
      (st := st) trivial rng
    exact ⟨L, st', rng', h, h2, hgood L h1⟩
  · obtain ⟨L, st', rng', h, h1, h2, -⟩ := fitWith_islands o attr
      (comp := fun idx a init at' (self : ReactSelf (Strat n q)) rng => do
        let (out, self') ← reactComponentList (Strat.ops expf (fun i => idx.get i) at' obj) obj at' a
          0 k1 k2 init
          ⟨self.visited, self.avg, self.repCounter, self.strat.start (obj.call init at'), rng⟩
        let labels ← fromArray idx.length out
        .ok (labels, ⟨self'.visited, self'.avg, self'.repCounter, self'.strat⟩, self'.rng))
      (fun _ => True) (fun idx a init att st rng hk h1 _ => by
        have := (c91_single_region (Strat.ops expf (fun i => idx.get i) att obj) obj att a init hk h1
          st.strat rng).2.2 k1 k2
          ⟨st.visited, st.avg, st.repCounter, st.strat.start (obj.call init att), rng⟩
        refine ⟨⟨st.visited, st.avg, st.repCounter, st.strat.start (obj.call init att)⟩, ?_, trivial⟩
        rw [this, Res.bind_ok]
        have hf : fromArray idx.length (arrayList init) = .ok init := by
          unfold fromArray
          rw [dif_pos (by simp [arrayList])]
          congr 1
          funext i
          simp [arrayList]
        dsimp only
        rw [hf, Res.bind_ok]) hi initial hstart' (st := self) trivial rng
    exact ⟨L, st', rng', h, h2, hgood L h1⟩

/-- C91: simulated annealing returns the islands whenever it returns labels. -/
theorem c91_sa {n : Nat} {ρ : Type} (o : MstOrder) (expf : ℚ → ℚ) (obj : Objective ρ)
    (f1 f2 f3 : Nat) (P : SaParams) (self : SaObj) {adj : Adj n} (hs : Symmetric adj)
    (attr : Fin n → ρ) {α : Type} [DecidableEq α] {isl : Fin n → α} (hi : Separates isl adj)
    (initial : Option (Labels n))
    (hinit : ∀ L, initial = some L → Feasible adj L (numRegions isl)) (cooling : ℚ) (rng : Rng)
    {L : Labels n} {self' : SaObj} {st' : Strat n 0} {rng' : Rng}
    (h : saFit o expf obj f1 f2 f3 P self adj attr (numRegions isl) initial cooling rng =
      .ok (some L, self', st', rng')) : Separates L adj :=
  c91_regions_are_islands hi ((c29_feasible o expf obj f1 f2 f3 P self hs attr _ initial hinit cooling
    rng h).2 L rfl)

/-- The islands 0-1 and 2-3 come back, without initial labels and with labels 7 and 3. -/
example : ∃ L st' rng', azpFit (q := 0) .rowMajor (fun x => x) (pairwise manhattan) 0 islands4 (ramp 4)
    2 none (.azp 0) (fun _ => 0) = .ok (L, st', rng') ∧ Separates L islands4 := by
  have hn : numRegions (compLabels islands4) = 2 := by decide +kernel
  obtain ⟨⟨L, st', rng', h, h1, -⟩, -⟩ := c91_islands .rowMajor (fun x => x) (pairwise manhattan)
    (ramp 4) (isl := compLabels islands4) (compLabels_eq_iff islands4) none (by rw [hn])
    (.azp 0 : Strat 4 0) (fun _ => 0)
  rw [hn] at h
  exact ⟨L, st', rng', h, h1⟩

example : (azpFit (q := 0) .rowMajor (fun x => x) (pairwise manhattan) 0 islands4 (ramp 4)
    2 (some ![7, 7, 3, 3]) (.azp 0) (fun _ => 0) >>= fun r => .ok (arrayList r.1)) =
    .ok [7, 7, 3, 3] := by decide +kernel

end Region.Props
