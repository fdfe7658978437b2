import Verif.Lemmas.StarTurn
import Verif.Lemmas.MaxPConstruct
import Verif.Lemmas.OneIsland
import Verif.Lemmas.ReactEnds
import Verif.Props.MaxpTabu
import Verif.Props.SaUnlimited
/-
Property theorems C133: the max-p heuristic ends, whatever the local search.
-/
namespace Region.Props

open Region Spec

theorem hasThr_of_decorated {n q : Nat} {spat : Fin n → Fin q → ℚ} {thr : Fin q → ℚ} : ∀ {st : Strat n q},
    st.Decorated spat thr → st.isMaxp = true → st.HasThr spat thr
  | .maxp _ _ _ _, ⟨h1, h2, _⟩, _ => ⟨h1, h2⟩

/-- The basic tabu search inside the heuristic. -/
theorem decorated_tabuFit {n q : Nat} {ρ : Type} (o : MstOrder) (expf : ℚ → ℚ) {metric : ρ → ρ → ℚ}
    (hd : Dissimilarity metric) {adj : Adj n} (hs : Symmetric adj) (attr : Fin n → ρ)
    (htie : TieFree fun i j => metric (attr i) (attr j)) {spat : Fin n → Fin q → ℚ} (hpos : ∀ v j, 0 ≤ spat v j)
    (thr : Fin q → ℚ) (len : Option Nat) (reps : Int) (F : Nat) (hF : n ^ n * (reps.toNat + 1) < F)
    {st : Strat n q} (hst : st.Decorated spat thr) (hx : st.isMaxp = true) (p : Nat) {init : Labels n}
    (hi : StartOk adj p init) (rng : Rng) :
    (basicTabuFit o expf (pairwise metric) F len reps adj attr p (some init) st rng).Post False False fun x =>
      x.2.1.Decorated spat thr ∧ x.2.1.isMaxp = true ∧ Feasible adj x.1 p := by
  have := fitWith_comp (σ := Strat n q) o (adj := adj) attr
    (comp := fun idx a init at' st rng =>
      basicComponent (Strat.ops expf (fun i => idx.get i) at' (pairwise metric)) (pairwise metric)
        at' a len reps F init (st.start ((pairwise metric).call init at')) rng)
    (S := fun st => st.Decorated spat thr ∧ st.isMaxp = true)
    (Q := fun idx init out => KeepsRegions (subAdj adj idx) init out) (R := False) (T := False) p
    (some init) (fun _ => ⟨hi.1, by rw [hi.2.1], fun v => ⟨v, .refl, hi.2.2 v⟩⟩) (by
      rintro idx init st rng hnd hlen hne hc ⟨h1, h2⟩
      refine mayComponent_total hd (decorated_rules hd.symm hd.zero _ hpos) (subAdj_symm hs _) hc
        (noTies_of_tieFree hd.zero htie hnd init) ?_
        ⟨(h1.start _).decorated, (Strat.isMaxp_start _ _).trans h2⟩ rng
      have hnum : numRegions init ≤ idx.length := by
        unfold numRegions
        exact Finset.card_image_le.trans (by simp)
      have hpow : numRegions init ^ idx.length ≤ n ^ n := by
        have h1 : 0 < n := lt_of_lt_of_le (List.length_pos_iff.2 (hne not_false)) hlen
        exact (Nat.pow_le_pow_left (hnum.trans hlen) _).trans (Nat.pow_le_pow_right h1 hlen)
      exact (Nat.mul_le_mul_right _ hpow).trans_lt hF) st ⟨hst, hx⟩ rng
  refine Res.Post.mono this id id ?_
  rintro ⟨L, st', rng'⟩ ⟨⟨h1, h2⟩, lab, ⟨h3, h4, rfl⟩, hfit⟩
  obtain ⟨g1, g2⟩ := fit_result hfit
  have hok := fitOk_of_keeps h3 g1 g2
  have h4' : numRegions lab = p := by exact_mod_cast h4
  exact ⟨h1, h2, hok.contiguous, by rw [FitOk.numRegions_eq hok, h4']⟩

open Classical in
/-- The condition that every island can carry a region, in the form the lemmas need it. -/
theorem enough_colSum {n q : Nat} {adj : Adj n} {spat : Fin n → Fin q → ℚ} {thr : Fin q → ℚ}
    (htot : ∀ v j, thr j ≤ ∑ u ∈ Finset.univ.filter (fun u => SameIsland adj v u), spat u j) (v : Fin n)
    (C : List (Fin n)) (hnd : C.Nodup) (hC : ∀ u, u ∈ C ↔ SameIsland adj v u) (j : Fin q) :
    thr j ≤ colSum spat C j := by
  have := htot v j
  unfold colSum
  rw [← List.sum_toFinset (fun v => spat v j) hnd]
  have hset : C.toFinset = Finset.univ.filter (fun u => SameIsland adj v u) := by
    ext u; simp [hC]
  rwa [hset]

open Classical in
theorem path4_total (v : Fin 4) (j : Fin 1) :
    (2 : ℚ) ≤ ∑ u ∈ Finset.univ.filter (fun u => SameIsland path4 v u), (fun _ (_ : Fin 1) => (1 : ℚ)) u j := by
  classical
  have hcon : Connected path4 := (nComponents_eq_one_iff _).1 (by decide +kernel)
  have : Finset.univ.filter (fun u => SameIsland path4 v u) = Finset.univ := by
    ext u; simp [hcon.2 v u]
  rw [this]
  norm_num

theorem path4_symm' : Spec.Symmetric path4 := by unfold Spec.Symmetric; decide

theorem line4_tieFree : TieFree fun i j => manhattan (column ![0, 1, 10, 100] i) (column ![0, 1, 10, 100] j) := by
  unfold TieFree
  decide +kernel

open Classical in
/-- C133 (part), basic tabu search: if the dissimilarities have no ties and every island can carry a region, the
heuristic returns, for every tabu length, termination parameter and random draws, a clustering into contiguous
regions that all reach the threshold, as many as its construction phase found. -/
theorem c133_basic_tabu_partial {n q : Nat} {ρ : Type} (o : MstOrder) (expf : ℚ → ℚ) {metric : ρ → ρ → ℚ}
    (hd : Dissimilarity metric) {adj : Adj n} (hs : Symmetric adj) (hloop : ∀ v, adj v v = false) (attr : Fin n → ρ)
    (htie : TieFree fun i j => metric (attr i) (attr j)) (spat : Fin n → Fin q → ℚ) (thr : Fin q → ℚ)
    (hpos : ∀ v j, 0 ≤ spat v j)
    (htot : ∀ v j, thr j ≤ ∑ u ∈ Finset.univ.filter (fun u => SameIsland adj v u), spat u j)
    (maxIt : Nat) (hit : 0 < maxIt) (len : Option Nat) (reps : Int) (F : Nat) (hF : n ^ n * (reps.toNat + 1) < F)
    {st : Strat n q} (hst : st.Decorated spat thr) (r : Rng) :
    ∃ p L st' r', maxpFit (basicTabuSearch o expf (pairwise metric) F len reps adj attr) metric (pairwise metric) adj
        attr spat thr maxIt st r = .ok (p, some L, st', r') ∧
      Feasible adj L p ∧ MeetsThreshold L spat thr := by
  have := maxpFit_post (basicTabuSearch o expf (pairwise metric) F len reps adj attr) (pairwise metric) attr
    (R := False) (T := False) (S := fun st => st.Decorated spat thr ∧ st.isMaxp = true)
    (S0 := fun st => st.Decorated spat thr) metric hs hloop spat thr hpos
    (fun _ => enough_colSum htot) (fun st h => ⟨⟨rfl, rfl, h⟩, rfl⟩) (fun _ h => h.1)
    (O := fun p L => Feasible adj L p ∧ MeetsThreshold L spat thr)
    (fun p init st r hc h0 hp hm hst => by
      change (basicTabuFit o expf _ F len reps adj attr (p : Int) (some init) st r >>= _).Post _ _ _
      obtain ⟨⟨L, st', r'⟩, h1, h2, h3, h4⟩ := (decorated_tabuFit o expf hd hs attr htie hpos thr len reps F hF
        hst.1 hst.2 p (init := init) ⟨hc, hp, h0⟩ r).total
      have h5 := (maxp_basicTabuFit o expf metric hpos attr p init h0 hm F len reps st
        (hasThr_of_decorated hst.1 hst.2) r).ok h1
      rw [h1, Res.bind_ok]
      exact ⟨⟨L, rfl, h4, h5.2.2.1⟩, h2, h3⟩)
    maxIt st hst r
  obtain ⟨⟨p, out, st', r'⟩, h1, -, h4, h5, -⟩ := this.total
  dsimp only at h4 h5
  obtain ⟨L, rfl⟩ := Option.ne_none_iff_exists'.1 (h5 hit)
  exact ⟨p, L, st', r', h1, h4 L rfl⟩

example (len : Option Nat) (r : Rng) : ∃ p L st' r', maxpFit (basicTabuSearch .rowMajor (fun _ => 0)
      (pairwise manhattan) 1025 len 3 path4 (column ![0, 1, 10, 100])) manhattan (pairwise manhattan) path4
      (column ![0, 1, 10, 100]) (fun _ (_ : Fin 1) => 1) (fun _ => 2) 2 (.azp 0) r = .ok (p, some L, st', r') ∧
    Feasible path4 L p ∧ MeetsThreshold L (fun _ (_ : Fin 1) => (1 : ℚ)) (fun _ => 2) :=
  c133_basic_tabu_partial .rowMajor _ manhattan_dissimilarity path4_symm' (by decide) _ line4_tieFree _ _
    (by intros; norm_num) path4_total 2 (by norm_num) len 3 _ (by decide)
    (st := .azp 0) trivial r

open Classical in
/-- C133, simulated annealing with a limit on the iterations: any objective with exact updates.  The clustering has
as many regions as the construction phase found; the threshold can be missed (C45). -/
theorem c133_annealing {n q : Nat} {ρ : Type} (o : MstOrder) (expf : ℚ → ℚ) {obj : Objective ρ}
    (he : obj.Exact) (ht : obj.Total) (metric : ρ → ρ → ℚ) {adj : Adj n} (hs : Symmetric adj)
    (hloop : ∀ v, adj v v = false) (attr : Fin n → ρ) (spat : Fin n → Fin q → ℚ) (thr : Fin q → ℚ)
    (hpos : ∀ v j, 0 ≤ spat v j)
    (htot : ∀ v j, thr j ≤ ∑ u ∈ Finset.univ.filter (fun u => SameIsland adj v u), spat u j)
    (maxIt : Nat) (hit : 0 < maxIt) (P : SaParams) (term : Nat) (hterm : 0 < term) (hPt : P.saMovesTerm = .int term)
    (M : Nat) (hM : P.maxIt = some (M : Int)) (f1 f2 f3 : Nat)
    (hf1 : n ^ n * P.repsBeforeTermination.toNat < f1) (hf2 : M ≤ f2) (hf3 : n + n ^ n < f3) (self : SaObj) (r : Rng) :
    ∃ p L self' r', maxpFit (saSearch o expf obj f1 f2 f3 P adj attr) metric obj adj attr spat thr maxIt self r =
        .ok (p, some L, self', r') ∧ Feasible adj L p := by
  have := maxpFit_post (saSearch o expf obj f1 f2 f3 P adj attr) obj attr
    (R := False) (T := False) (S := fun _ => True) (S0 := fun _ => True) metric hs hloop spat thr hpos
    (fun _ => enough_colSum htot) (fun _ _ => trivial) (fun _ _ => trivial)
    (O := fun p L => Feasible adj L p)
    (fun p init self r hc h0 hp hm _ => by
      have hpn : p ^ n ≤ n ^ n := by
        refine Nat.pow_le_pow_left ?_ n
        rw [← hp]
        unfold numRegions
        exact Finset.card_image_le.trans (by simp)
      obtain ⟨res, self', st', r', _, h1, -⟩ := c30_terminates o expf he ht f1 f2 f3 P self hs attr p (some init)
        ⟨hc, by rw [hp], fun v => ⟨v, .refl, h0 v⟩⟩ (85 / 100) (by norm_num) (by norm_num) term hterm hPt M hM
        (.inl rfl) ((Nat.mul_le_mul_right _ hpn).trans_lt hf1) hf2 hf3 r
      obtain ⟨h2, h3⟩ := c29_feasible o expf obj f1 f2 f3 P self hs attr p (some init)
        (fun L hL => by cases hL; exact ⟨hc, hp⟩) (85 / 100) r h1
      obtain ⟨L, rfl⟩ := Option.isSome_iff_exists.1 (h2 (.inl rfl))
      change (saFit o expf obj f1 f2 f3 P self adj attr p (some init) (85 / 100) r >>= _).Post _ _ _
      rw [h1, Res.bind_ok]
      exact ⟨⟨L, rfl, h3 L rfl⟩, trivial⟩)
    maxIt self trivial r
  obtain ⟨⟨p, out, self', r'⟩, h1, -, h4, h5, -⟩ := this.total
  dsimp only at h4 h5
  obtain ⟨L, rfl⟩ := Option.ne_none_iff_exists'.1 (h5 hit)
  exact ⟨p, L, self', r', h1, h4 L rfl⟩

example (r : Rng) : ∃ p L self' r', maxpFit (saSearch .rowMajor (fun _ => 0) (pairwise manhattan) 257 7 261
      ⟨50, some ((7 : Nat) : Int), .int 2, 1, 1⟩ path4 (column ![0, 0, 0, 0])) manhattan (pairwise manhattan) path4
      (column ![0, 0, 0, 0]) (fun _ (_ : Fin 1) => 1) (fun _ => 2) 2 .fresh r = .ok (p, some L, self', r') ∧
    Feasible path4 L p :=
  c133_annealing .rowMajor _ (pairwise_exact manhattan_dissimilarity.symm manhattan_dissimilarity.zero)
    (pairwise_total _) manhattan path4_symm' (by decide) _ _ _ (by intros; norm_num) path4_total 2 (by norm_num)
    _ 2 (by norm_num) rfl 7 rfl 257 7 261 (by decide) (by decide) (by decide) .fresh r

open Classical in
/-- C133 (part), simulated annealing without a limit on the iterations: data without ties. -/
theorem c133_annealing_unlimited_partial {n q : Nat} {ρ : Type} (o : MstOrder) (expf : ℚ → ℚ)
    {metric : ρ → ρ → ℚ} (hd : Dissimilarity metric) {adj : Adj n} (hs : Symmetric adj)
    (hloop : ∀ v, adj v v = false) (attr : Fin n → ρ) (htie : TieFree fun i j => metric (attr i) (attr j))
    (spat : Fin n → Fin q → ℚ) (thr : Fin q → ℚ) (hpos : ∀ v j, 0 ≤ spat v j)
    (htot : ∀ v j, thr j ≤ ∑ u ∈ Finset.univ.filter (fun u => SameIsland adj v u), spat u j)
    (maxIt : Nat) (hit : 0 < maxIt) (P : SaParams) (term : Nat) (hterm : 0 < term) (hPt : P.saMovesTerm = .int term)
    (f1 f2 f3 : Nat) (hf1 : n ^ n * P.repsBeforeTermination.toNat < f1) (hf2 : (term + 1) * (n ^ n + 1) < f2)
    (hf3 : n + n ^ n < f3) (self : SaObj) (r : Rng) :
    ∃ p L self' r', maxpFit (saSearch o expf (pairwise metric) f1 f2 f3 P adj attr) metric (pairwise metric) adj attr
        spat thr maxIt self r = .ok (p, some L, self', r') ∧ Feasible adj L p := by
  have := maxpFit_post (saSearch o expf (pairwise metric) f1 f2 f3 P adj attr) (pairwise metric) attr
    (R := False) (T := False) (S := fun _ => True) (S0 := fun _ => True) metric hs hloop spat thr hpos
    (fun _ => enough_colSum htot) (fun _ _ => trivial) (fun _ _ => trivial)
    (O := fun p L => Feasible adj L p)
    (fun p init self r hc h0 hp hm _ => by
      have hpn : p ^ n ≤ n ^ n := by
        refine Nat.pow_le_pow_left ?_ n
        rw [← hp]
        unfold numRegions
        exact Finset.card_image_le.trans (by simp)
      obtain ⟨res, self', st', r', h1, h3, h2⟩ := c101_terminates_partial o expf hd f1 f2 f3 P self hs attr htie p
        (some init) ⟨hc, by rw [hp], fun v => ⟨v, .refl, h0 v⟩⟩ (85 / 100) (by norm_num) (by norm_num) term hterm
        hPt (.inl rfl) ((Nat.mul_le_mul_right _ hpn).trans_lt hf1)
        ((Nat.mul_le_mul_left _ (by omega)).trans_lt hf2) hf3 r
      obtain ⟨L, rfl⟩ := Option.isSome_iff_exists.1 (h2 (.inl rfl))
      change (saFit o expf (pairwise metric) f1 f2 f3 P self adj attr p (some init) (85 / 100) r >>= _).Post _ _ _
      rw [h1, Res.bind_ok]
      exact ⟨⟨L, rfl, h3 L rfl⟩, trivial⟩)
    maxIt self trivial r
  obtain ⟨⟨p, out, self', r'⟩, h1, -, h4, h5, -⟩ := this.total
  dsimp only at h4 h5
  obtain ⟨L, rfl⟩ := Option.ne_none_iff_exists'.1 (h5 hit)
  exact ⟨p, L, self', r', h1, h4 L rfl⟩

example (r : Rng) : ∃ p L self' r', maxpFit (saSearch .rowMajor (fun _ => 0) (pairwise manhattan) 257 772 261
      ⟨50, none, .int 2, 1, 1⟩ path4 (column ![0, 1, 10, 100])) manhattan (pairwise manhattan) path4
      (column ![0, 1, 10, 100]) (fun _ (_ : Fin 1) => 1) (fun _ => 2) 2 .fresh r = .ok (p, some L, self', r') ∧
    Feasible path4 L p :=
  c133_annealing_unlimited_partial .rowMajor _ manhattan_dissimilarity path4_symm' (by decide) _ line4_tieFree _ _
    (by intros; norm_num) path4_total 2 (by norm_num) _ 2 (by norm_num) rfl 257 772 261 (by decide) (by decide)
    (by decide) .fresh r

/-! ### The reactive tabu search -/

/-- C133 (part), reactive tabu search: the heuristic comes to an end, with a result or with an exception, for every
objective, all settings, any object and any draws. -/
theorem c133_reactive_ends {n q : Nat} {ρ : Type} (o : MstOrder) (expf : ℚ → ℚ) (obj : Objective ρ)
    (metric : ρ → ρ → ℚ) {adj : Adj n} (hs : Symmetric adj) (attr : Fin n → ρ)
    (spat : Fin n → Fin q → ℚ) (thr : Fin q → ℚ) (hpos : ∀ v j, 0 ≤ spat v j) (maxIt searchIt : Nat) (k1 k2 : Int)
    (self : ReactSelf (Strat n q)) (r : Rng) :
    maxpFit (reactiveTabuSearch o expf obj searchIt k1 k2 adj attr) metric obj adj attr spat thr maxIt self r ≠
      .timeout := by
  have := maxpFit_post_loops (reactiveTabuSearch o expf obj searchIt k1 k2 adj attr) obj attr
    (R := True) (T := False) (S := fun _ => True) (S0 := fun _ => True) metric hs
    (fun h => absurd trivial h) spat thr hpos (fun h => absurd trivial h) (fun _ _ => trivial) (fun _ _ => trivial) (O := fun _ _ => True)
    maxIt self trivial r
    (fun p init self r _ hc h0 hp hm _ => by
      change (reactiveTabuFit o expf obj searchIt k1 k2 adj attr p (some init) self r >>= _).Post _ _ _
      exact Res.Post.bind (reactiveTabuFit_ends o expf obj searchIt k1 k2 adj attr p (some init) self r)
        fun a _ _ => ⟨⟨a.1, rfl, trivial⟩, trivial⟩)
  intro h
  rw [h] at this
  exact this

theorem alone_built {n q : Nat} {adj : Adj n} {d : Fin n → Fin n → ℚ} {spat : Fin n → Fin q → ℚ} {thr : Fin q → ℚ}
    (hall : ∀ v j, thr j ≤ spat v j) {v : Fin n} {U U' R : Finset (Fin n)} {ok : Bool}
    (h : Built adj d spat thr U {v} ok U' R) : ok = true ∧ U' = U := by
  have hr : Reaches spat thr {v} := fun j => by rw [Finset.sum_singleton]; exact hall v j
  cases h with
  | full _ => exact ⟨rfl, rfl⟩
  | stuck h _ => exact absurd hr h
  | take h _ _ _ _ => exact absurd hr h

theorem alone_constructed {n q : Nat} {adj : Adj n} {d : Fin n → Fin n → ℚ} {spat : Fin n → Fin q → ℚ}
    {thr : Fin q → ℚ} (hall : ∀ v j, thr j ≤ spat v j) {P P' : List (Finset (Fin n))} {E E' U : Finset (Fin n)}
    (h : Constructed adj d spat thr P E U P' E') : P'.length = P.length + U.card := by
  induction h with
  | done => simp
  | @region P P' E E' U U' R v hv hb t ih =>
    obtain ⟨-, rfl⟩ := alone_built hall hb
    have : 0 < U.card := Finset.card_pos.2 ⟨v, hv⟩
    rw [ih, List.length_append, List.length_singleton, Finset.card_erase_of_mem hv]
    omega
  | @enclave P P' E E' U U' R v hv hb t ih => cases (alone_built hall hb).1

theorem alone_growRuns {n q : Nat} {ρ : Type} (metric : ρ → ρ → ℚ) {adj : Adj n} (hs : Symmetric adj)
    (hloop : ∀ v, adj v v = false) (attr : Fin n → ρ) {spat : Fin n → Fin q → ℚ} {thr : Fin q → ℚ}
    (hall : ∀ v j, thr j ≤ spat v j) : ∀ (it : Nat) (r : Rng) {runs r'},
    growRuns metric adj attr spat thr it r = .ok (runs, r') → runs.length = it ∧ ∀ pe ∈ runs, pe.1.length = n
  | 0, r, runs, r', h => by
    unfold growRuns at h
    cases h
    exact ⟨rfl, fun _ h => by cases h⟩
  | it + 1, r, runs, r', h => by
    unfold growRuns at h
    obtain ⟨⟨⟨P, E⟩, r1⟩, h1, h⟩ := Res.bind_eq_ok.1 h
    obtain ⟨⟨pes, r2⟩, h2, h⟩ := Res.bind_eq_ok.1 h
    cases h
    obtain ⟨g1, g2⟩ := alone_growRuns metric hs hloop attr hall it _ h2
    have := growLoop_sound hs hloop n ⟨by simp, by simp, (fun _ h => by cases h),
      (fun _ _ _ h => by cases h), (fun _ h => by cases h)⟩ h1
    have := alone_constructed hall this
    refine ⟨by simp [g1], fun pe hpe => ?_⟩
    rcases List.mem_cons.1 hpe with rfl | hpe
    · rw [List.length_map] at this
      rw [this, show (List.finRange n).toFinset = Finset.univ by ext; simp]
      simp
    · exact g2 pe hpe

/-- C133 is false for the reactive tabu search: if every area reaches the thresholds alone – then the construction
makes every area a region of its own – the heuristic raises an exception on every connected map with two or more
areas, whatever the data, the settings and the draws. -/
theorem c133_reactive_raises {n q : Nat} {ρ : Type} (o : MstOrder) (expf : ℚ → ℚ) (obj : Objective ρ)
    (metric : ρ → ρ → ℚ) {adj : Adj n} (hs : Symmetric adj) (hloop : ∀ v, adj v v = false) (hcon : Connected adj)
    (hn : 2 ≤ n) (attr : Fin n → ρ) (spat : Fin n → Fin q → ℚ) (thr : Fin q → ℚ) (hpos : ∀ v j, 0 ≤ spat v j)
    (hall : ∀ v j, thr j ≤ spat v j) (maxIt searchIt : Nat) (hit : 0 < maxIt) (hsearch : 0 < searchIt) (k1 k2 : Int)
    (self : ReactSelf (Strat n q)) (r : Rng) :
    ∃ e, maxpFit (reactiveTabuSearch o expf obj searchIt k1 k2 adj attr) metric obj adj attr spat thr maxIt self r =
      .raise e := by
  have := maxpFit_post_of (reactiveTabuSearch o expf obj searchIt k1 k2 adj attr) obj attr
    (R := True) (T := False) (S := fun _ => True) (S0 := fun _ => True) metric hs hloop spat thr hpos
    (fun h => absurd trivial h) (fun _ _ => trivial) (fun _ _ => trivial) (O := fun _ _ => False)
    maxIt self trivial r
    (fun p init self r1 ⟨runs, r', hr, hmost⟩ hc h0 hp hm _ => by
      obtain ⟨hlen, hthree⟩ := alone_growRuns metric hs hloop attr hall _ _ hr
      have hne : runs ≠ [] := by
        intro h
        rw [h] at hlen
        simp at hlen
        omega
      obtain ⟨pe, hpe, heq⟩ := exists_mostRegions hne
      have hpn : p = n := by rw [hmost, ← heq, hthree pe hpe]
      have hinj : Function.Injective init := by
        have h1 : (Finset.univ.image init).card = (Finset.univ : Finset (Fin n)).card := by
          rw [Finset.card_univ, Fintype.card_fin]
          exact hp.trans hpn
        intro u v h
        exact Finset.card_image_iff.1 h1 (by simp) (by simp) h
      change (reactiveTabuFit o expf obj searchIt k1 k2 adj attr p (some init) self r1 >>= _).Post _ _ _
      refine Res.Post.bind (Q := fun _ => False) ?_ fun a _ h => h.elim
      unfold reactiveTabuFit
      refine fitWith_one (Q := fun _ _ => False) (p := (p : Int)) (initial := some init) o hcon ⟨hc,
        by rw [hp], fun v => ⟨v, .refl, h0 v⟩⟩ (fun _ h => by cases h; exact h0) self r1 ?_
      rintro lab ⟨-, -, rfl⟩ rng
      have hget : Function.Injective fun i => lab ((List.finRange n).get i) := fun u v h =>
        (List.nodup_iff_injective_get.1 (List.nodup_finRange n)) (hinj h)
      dsimp only
      rw [c39_attribute_error _ _ _ (fun u v h => hget h) ?_ _ hsearch]
      · trivial
      · unfold numRegions
        rw [Finset.card_image_of_injective _ hget, Finset.card_univ, Fintype.card_fin, List.length_finRange]
        omega)
  generalize maxpFit _ _ _ _ _ _ _ _ _ _ = res at this ⊢
  cases res with
  | ok x =>
    obtain ⟨-, h1, h2, -⟩ := this
    obtain ⟨L, hL⟩ := Option.ne_none_iff_exists'.1 (h2 hit)
    exact (h1 L hL).elim
  | raise e => exact ⟨e, rfl⟩
  | timeout => exact this.elim

example (r : Rng) : ∃ e, maxpFit (reactiveTabuSearch .rowMajor (fun _ => 0) (pairwise manhattan) 40 1 1 path4
      (column ![0, 1, 10, 100])) manhattan (pairwise manhattan) path4 (column ![0, 1, 10, 100])
      (fun _ (_ : Fin 1) => 1) (fun _ => 1) 2 (.fresh (.azp 0)) r = .raise e :=
  c133_reactive_raises .rowMajor _ _ manhattan path4_symm' (by decide)
    ((nComponents_eq_one_iff _).1 (by decide +kernel)) (by omega) _ _ _ (by intros; norm_num) (by intros; norm_num)
    2 40 (by omega) (by omega) 1 1 _ r

/-! ### Data with ties -/

/-- The outer areas of the star count, its centre does not. -/
def starQuota : Fin 4 → Fin 1 → ℚ := fun v _ => if v = 0 then 0 else 1

theorem starQuota_reaches {R : Finset (Fin 4)} : Reaches starQuota (fun _ => 1) R ↔ ∃ v ∈ R, v ≠ 0 := by
  unfold Reaches starQuota
  constructor
  · intro h
    by_contra hno
    push Not at hno
    have := h 0
    rw [Finset.sum_eq_zero fun v hv => by rw [if_pos (hno v hv)]] at this
    norm_num at this
  · rintro ⟨v, hv, hv0⟩ j
    have := Finset.single_le_sum (f := fun v : Fin 4 => if v = 0 then (0 : ℚ) else 1)
      (fun v _ => by split <;> norm_num) hv
    rwa [if_neg hv0] at this

/-- Growing a region around an outer area ends at once; around the centre it takes one outer area, if one is left. -/
theorem star_built {d : Fin 4 → Fin 4 → ℚ} {v : Fin 4} {U U' R : Finset (Fin 4)} {ok : Bool}
    (h : Built star4 d starQuota (fun _ => 1) U {v} ok U' R) (hv : v ∉ U) :
    (U.erase 0).card + (if v = 0 then 0 else 1) = (U'.erase 0).card + (if ok then 1 else 0) := by
  have hedge : ∀ q : Fin 4, Borders star4 0 q ↔ q ≠ 0 := by unfold Borders; decide
  cases h with
  | full h =>
    obtain ⟨u, hu, h0⟩ := starQuota_reaches.1 h
    rw [Finset.mem_singleton] at hu
    subst hu
    rw [if_neg h0]
    rfl
  | stuck h hn =>
    have h0 : v = 0 := by
      by_contra h0
      exact h (starQuota_reaches.2 ⟨v, by simp, h0⟩)
    rw [if_pos h0]
    rfl
  | @take _ _ _ _ _ w h hw ht hm t =>
    have h0 : v = 0 := by
      by_contra h0
      exact h (starQuota_reaches.2 ⟨v, by simp, h0⟩)
    subst h0
    obtain ⟨u, hu, hb⟩ := ht
    rw [Finset.mem_singleton] at hu
    subst hu
    have hw0 := (hedge w).1 hb
    have hr : Reaches starQuota (fun _ => 1) (insert w {0}) := starQuota_reaches.2 ⟨w, by simp, hw0⟩
    cases t with
    | full _ =>
      have hmem : w ∈ U.erase 0 := Finset.mem_erase.2 ⟨hw0, hw⟩
      rw [if_pos rfl, if_pos rfl, Finset.erase_right_comm, Finset.card_erase_of_mem hmem]
      have : 0 < (U.erase 0).card := Finset.card_pos.2 ⟨w, hmem⟩
      omega
    | stuck h _ => exact absurd hr h
    | take h _ _ _ _ => exact absurd hr h

theorem star_constructed {d : Fin 4 → Fin 4 → ℚ} {P P' : List (Finset (Fin 4))} {E E' U : Finset (Fin 4)}
    (h : Constructed star4 d starQuota (fun _ => 1) P E U P' E') : P'.length = P.length + (U.erase 0).card := by
  have herase : ∀ (v : Fin 4) (U : Finset (Fin 4)), v ∈ U →
      (U.erase 0).card = ((U.erase v).erase 0).card + (if v = 0 then 0 else 1) := by decide
  induction h with
  | done => simp
  | @region P P' E E' U U' R v hv hb t ih =>
    have := star_built hb (by simp)
    rw [ih, herase v U hv, this, List.length_append, if_pos rfl, List.length_singleton]
    omega
  | @enclave P P' E E' U U' R v hv hb t ih =>
    have := star_built hb (by simp)
    rw [ih, herase v U hv, this, if_neg (by simp)]
    rfl

theorem star4_loop : ∀ v, star4 v v = false := by decide

/-- Every run of the construction phase finds three regions. -/
theorem star_growRuns (attr : Fin 4 → Row 1) : ∀ (it : Nat) (r : Rng) {runs r'},
    growRuns manhattan star4 attr starQuota (fun _ => 1) it r = .ok (runs, r') →
    runs.length = it ∧ ∀ pe ∈ runs, pe.1.length = 3
  | 0, r, runs, r', h => by
    unfold growRuns at h
    cases h
    exact ⟨rfl, fun _ h => by cases h⟩
  | it + 1, r, runs, r', h => by
    unfold growRuns at h
    obtain ⟨⟨⟨P, E⟩, r1⟩, h1, h⟩ := Res.bind_eq_ok.1 h
    obtain ⟨⟨pes, r2⟩, h2, h⟩ := Res.bind_eq_ok.1 h
    cases h
    obtain ⟨g1, g2⟩ := star_growRuns attr it _ h2
    have := growLoop_sound star4_symm star4_loop 4 ⟨by simp, by simp, (fun _ h => by cases h),
      (fun _ _ _ h => by cases h), (fun _ h => by cases h)⟩ h1
    have := star_constructed this
    refine ⟨by simp [g1], fun pe hpe => ?_⟩
    rcases List.mem_cons.1 hpe with rfl | hpe
    · rw [List.length_map] at this
      rw [this]
      decide
    · exact g2 pe hpe

/-- With three regions that reach the threshold, the outer areas are in different ones. -/
theorem starTurn_start {len : Option Nat} {L : Labels 4} (hp : numRegions L = 3)
    (hm : MeetsThreshold L starQuota fun _ => 1) : StarTurn len ⟨L, [], [], False⟩ := by
  have hleaf : ∀ v, ∃ u : Fin 4, u ≠ 0 ∧ L u = L v := by
    intro v
    obtain ⟨u, hu, h0⟩ := starQuota_reaches.1 (fun j => hm v j)
    exact ⟨u, h0, (Finset.mem_filter.1 hu).2⟩
  have hinj : Set.InjOn L ((Finset.univ.erase (0 : Fin 4) : Finset (Fin 4)) : Set (Fin 4)) := by
    rw [← Finset.card_image_iff]
    have : (Finset.univ.erase (0 : Fin 4)).image L = Finset.univ.image L := by
      ext x
      simp only [Finset.mem_image, Finset.mem_erase, Finset.mem_univ, and_true, true_and]
      constructor
      · rintro ⟨u, -, rfl⟩; exact ⟨u, rfl⟩
      · rintro ⟨v, rfl⟩
        obtain ⟨u, h0, hu⟩ := hleaf v
        exact ⟨u, h0, hu⟩
    rw [this]
    exact hp
  have hinj' : ∀ i j : Fin 4, i ≠ 0 → j ≠ 0 → L i = L j → i = j := fun i j hi hj h =>
    hinj (by simpa using hi) (by simpa using hj) h
  obtain ⟨u, hu, hu0⟩ := hleaf 0
  have hothers : ∀ u : Fin 4, u ≠ 0 → ∃ s t : Fin 4, s ≠ 0 ∧ t ≠ 0 ∧ u ≠ s ∧ s ≠ t ∧ t ≠ u := by decide
  obtain ⟨s, t, hs, ht, h1, h2, h3⟩ := hothers u hu
  exact ⟨hinj', L 0, L s, L t, fun h => h1 (hinj' _ _ hu hs (hu0.trans h)), fun h => h2 (hinj' _ _ hs ht h),
    fun h => h3 (hinj' _ _ ht hu (h.trans hu0.symm)), rfl, ⟨u, hu, hu0⟩, ⟨s, hs, rfl⟩, ⟨t, ht, rfl⟩,
    .inr ⟨by simp, .inl rfl⟩⟩

theorem star4_connected : Connected star4 := by
  rw [← nComponents_eq_one_iff]
  decide +kernel

theorem starQuota_nonneg (v : Fin 4) (j : Fin 1) : 0 ≤ starQuota v j := by
  unfold starQuota
  split <;> norm_num

theorem starQuota_dispensable (L : Labels 4) : Dispensable starQuota (fun _ => 1) L 0 :=
  .inl fun _ => rfl

theorem star_component {k : Nat} (hk : k = 4) {idx : Fin k → Fin 4} (hidx : ∀ i, (idx i).val = i.val) {a : Adj k}
    (ha : ∀ i j, a i j = star4 (idx i) (idx j)) {L : Labels 4} {l : Labels k} (hl : ∀ i, l i = L (idx i))
    {at' : Fin k → Row 1} (hat : ∀ i, at' i = fun _ => 0) (hc : AllContiguous star4 L) (hp : numRegions L = 3)
    (hm : MeetsThreshold L starQuota fun _ => 1) (expf : ℚ → ℚ) (len : Option Nat) (reps : Int) (F : Nat)
    {st : Strat 4 1} (hst : st.Decorated starQuota (fun _ => 1)) (hx : st.isMaxp = true) (rng : Rng) :
    basicComponent (Strat.ops expf idx at' (pairwise manhattan)) (pairwise manhattan) at' a len reps F l st rng =
      .timeout := by
  subst hk
  have h1 : idx = id := funext fun i => Fin.ext (hidx i)
  subst h1
  have h2 : a = star4 := funext fun i => funext fun j => ha i j
  have h3 : l = L := funext hl
  have h4 : at' = column fun _ => 0 := funext hat
  subst h2; subst h3; subst h4
  have hd := manhattan_dissimilarity (m := 1)
  exact starTurn_component (decorated_rules (expf := expf) (idx := id) (thr := fun _ => 1) hd.symm hd.zero star4
      starQuota_nonneg)
    (fun L r => ⟨.inl fun _ => rfl, by rw [star_value, star_value]⟩) hc (starTurn_start hp hm) F ⟨hst, hx⟩ rng

theorem star_tabuFit (o : MstOrder) (expf : ℚ → ℚ) (len : Option Nat) (reps : Int) (F : Nat) {st : Strat 4 1}
    (hst : st.Decorated starQuota (fun _ => 1)) (hx : st.isMaxp = true) {init : Labels 4} (hi : StartOk star4 3 init)
    (hm : MeetsThreshold init starQuota fun _ => 1) (rng : Rng) :
    basicTabuFit o expf (pairwise manhattan) F len reps star4 (column fun _ => 0) (3 : Nat) (some init) st rng =
      .timeout := by
  have := fitWith_one (σ := Strat 4 1) o star4_connected (attr := column fun _ => 0)
    (comp := fun idx a init at' st rng =>
      basicComponent (Strat.ops expf (fun i => idx.get i) at' (pairwise manhattan)) (pairwise manhattan)
        at' a len reps F init (st.start ((pairwise manhattan).call init at')) rng)
    (R := False) (T := True) (Q := fun _ _ => False) (p := ((3 : Nat) : Int)) (initial := some init)
    ⟨hi.1, by rw [hi.2.1], fun v => ⟨v, .refl, hi.2.2 v⟩⟩ (fun _ h => by cases h; exact hi.2.2) st rng (by
      rintro lab ⟨hc, hp, rfl⟩ rng
      rw [star_component (by simp) (idx := fun i => (List.finRange 4).get i) (by simp)
        (a := subAdj star4 (List.finRange 4)) (fun _ _ => rfl) (L := lab)
        (l := fun i => lab ((List.finRange 4).get i)) (fun _ => rfl)
        (at' := fun i => column (fun _ => 0) ((List.finRange 4).get i)) (fun _ => rfl) hi.1 hi.2.1 hm
        expf len reps F (hst.start _).decorated ((Strat.isMaxp_start _ _).trans hx) rng]
      trivial)
  unfold basicTabuFit
  generalize fitWith o star4 _ _ _ _ st rng = res at this ⊢
  cases res with
  | ok _ => exact this.elim
  | raise _ => exact this.elim
  | timeout => rfl

/-- C133 is false for data with ties: on four areas that are all alike, one of them bordering the others, the
heuristic with the basic tabu search never returns, for every tabu length, termination parameter, number of
construction runs and random draws. -/
theorem c133_endless (o : MstOrder) (expf : ℚ → ℚ) (maxIt : Nat) (hit : 0 < maxIt) (len : Option Nat) (reps : Int)
    (F : Nat) (v : ℚ) (r : Rng) :
    maxpFit (basicTabuSearch o expf (pairwise manhattan) F len reps star4 (column fun _ => 0)) manhattan
      (pairwise manhattan) star4 (column fun _ => 0) starQuota (fun _ => 1) maxIt (.azp v) r = .timeout := by
  have := maxpFit_post_of (basicTabuSearch o expf (pairwise manhattan) F len reps star4 (column fun _ => 0))
    (pairwise manhattan) (column fun _ => 0) (R := False) (T := True)
    (S := fun st => st.Decorated starQuota (fun _ => 1) ∧ st.isMaxp = true)
    (S0 := fun st => st.Decorated starQuota (fun _ => 1)) manhattan star4_symm star4_loop starQuota (fun _ => 1)
    starQuota_nonneg (fun _ w C hnd hC j => by
      have : ∀ u, u ∈ C := fun u => (hC u).2 (star4_connected.2 w u)
      unfold colSum
      rw [← List.sum_toFinset (fun v => starQuota v j) hnd, show C.toFinset = Finset.univ by ext u; simp [this]]
      exact starQuota_reaches.2 ⟨1, by simp, by decide⟩ j) (fun st h => ⟨⟨rfl, rfl, h⟩, rfl⟩) (fun _ h => h.1)
    (O := fun _ _ => False) maxIt (.azp v) trivial r
    (fun p init st r1 ⟨runs, r', hr, hmost⟩ hc h0 hp hm hst => by
      obtain ⟨hlen, hall⟩ := star_growRuns _ _ _ hr
      have hne : runs ≠ [] := by
        intro h
        rw [h] at hlen
        simp at hlen
        omega
      obtain ⟨pe, hpe, heq⟩ := exists_mostRegions hne
      have hp3 : p = 3 := by rw [hmost, ← heq, hall pe hpe]
      subst hp3
      change (basicTabuFit o expf _ F len reps star4 _ ((3 : Nat) : Int) (some init) st r1 >>= _).Post _ _ _
      rw [star_tabuFit o expf len reps F hst.1 hst.2 ⟨hc, hp, h0⟩ hm r1]
      trivial)
  generalize maxpFit _ _ _ _ _ _ _ _ _ _ = res at this ⊢
  cases res with
  | ok x =>
    obtain ⟨-, h1, h2, -⟩ := this
    obtain ⟨L, hL⟩ := Option.ne_none_iff_exists'.1 (h2 hit)
    exact (h1 L hL).elim
  | raise _ => exact this.elim
  | timeout => rfl

end Region.Props
