import Verif.Lemmas.AzpFit
import Verif.Lemmas.Sparse
import Verif.Model.SparseAzp
/-
The classes of azp.py on a matrix with stored values only see which values are not zero.
-/
namespace Region.Csr

open Region Spec

section Component
variable {σ ρ : Type} {k : Nat} {keep : Bool} {A : Csr k}

theorem isConnected_sub (h : keep = false ∨ A.Clean) (nodes : List (Fin k)) :
    (A.sub keep nodes).isConnected = Region.isConnected (subAdj A.nonzero nodes) := by
  have hc : (A.sub keep nodes).Clean := by
    rcases h with rfl | h
    · exact sub_clean A _
    · exact h.sub keep _
  unfold isConnected
  rw [hc.stored, nonzero_sub]

theorem booleanAssertFeasible_eq (h : keep = false ∨ A.Clean) (L : Labels k) (p : Option Int) :
    A.booleanAssertFeasible keep L p = Region.booleanAssertFeasible L A.nonzero p := by
  unfold booleanAssertFeasible Region.booleanAssertFeasible
  simp only [isConnected_sub h]
  cases p <;> rfl

theorem initNbrs_eq (L : Labels k) (regions : List Int) :
    initNbrs A L regions = Region.initNbrs A.nonzero L regions := by
  unfold initNbrs Region.initNbrs
  simp only [neighbors_eq]

theorem candidates_eq (h : keep = false ∨ A.Clean) (L : Labels k) (border : Fin k → Bool) :
    candidates keep A L border = Region.candidates A.nonzero L border := by
  unfold candidates Region.candidates subAdjWo
  simp only [isConnected_sub h]

theorem applyMove_eq (x : Int) (c : Fin k) (s : AzpState σ k) :
    applyMove A x c s = Region.applyMove A.nonzero x c s := by
  unfold applyMove Region.applyMove
  simp only [neighbors_eq]

theorem tryCandidates_eq (ops : StratOps σ k) (x : Int) (fuel : Nat) :
    ∀ (cs : List (Fin k)) (s : AzpState σ k),
      tryCandidates ops keep A x fuel cs s = Region.tryCandidates ops A.nonzero x fuel cs s := by
  induction fuel with
  | zero => intro cs s; cases cs <;> rfl
  | succ fuel ih =>
    intro cs s
    cases cs with
    | nil => rfl
    | cons c cs =>
      unfold tryCandidates Region.tryCandidates
      simp only [ih, applyMove_eq]

theorem growRegion_eq (h : keep = false ∨ A.Clean) (ops : StratOps σ k) (x : Int) (fuel : Nat) :
    ∀ s : AzpState σ k, growRegion ops keep A x fuel s = Region.growRegion ops A.nonzero x fuel s := by
  induction fuel with
  | zero => intro s; rfl
  | succ fuel ih =>
    intro s
    unfold growRegion Region.growRegion
    simp only [ih, tryCandidates_eq, candidates_eq h]

theorem passRegions_eq (h : keep = false ∨ A.Clean) (ops : StratOps σ k) (fuel m : Nat) :
    ∀ (xs : List Int) (s : AzpState σ k),
      passRegions ops keep A fuel m xs s = Region.passRegions ops A.nonzero fuel m xs s := by
  induction m with
  | zero => intro xs s; cases xs <;> rfl
  | succ m ih =>
    intro xs s
    cases xs with
    | nil => rfl
    | cons x xs =>
      unfold passRegions Region.passRegions
      simp only [ih, growRegion_eq h]

theorem azpOuter_eq (h : keep = false ∨ A.Clean) (ops : StratOps σ k) (regions : List Int)
    (fuel m : Nat) : ∀ (start : Option ℚ) (stop : ℚ) (s : AzpState σ k),
      azpOuter ops keep A regions fuel m start stop s =
        Region.azpOuter ops A.nonzero regions fuel m start stop s := by
  induction m with
  | zero => intro start stop s; unfold azpOuter Region.azpOuter; rfl
  | succ m ih =>
    intro start stop s
    unfold azpOuter Region.azpOuter
    simp only [ih, passRegions_eq h]

theorem azpComponent_eq (h : keep = false ∨ A.Clean) (ops : StratOps σ k) (fuel : Nat)
    (init : Labels k) (strat : σ) (rng : Rng) :
    azpComponent ops keep A fuel init strat rng =
      Region.azpComponent ops A.nonzero fuel init strat rng := by
  unfold azpComponent Region.azpComponent
  simp only [azpOuter_eq h, initNbrs_eq]

variable (ops : StratOps σ k) (obj : Objective ρ) (attr : Fin k → ρ)

theorem tabuMakeMove_eq (h : keep = false ∨ A.Clean) (a : Fin k) (x : Int) (L : Labels k)
    (t : Tabu k) : tabuMakeMove keep A a x L t = Region.tabuMakeMove A.nonzero a x L t := by
  unfold tabuMakeMove Region.tabuMakeMove
  simp only [booleanAssertFeasible_eq h]

theorem possibleMoves_eq (h : keep = false ∨ A.Clean) (L : Labels k) (t : Tabu k) :
    possibleMoves keep A L t = Region.possibleMoves A.nonzero L t := by
  unfold possibleMoves Region.possibleMoves subAdjWo
  simp only [isConnected_sub h, neighbors_eq]

theorem tryMove_eq (h : keep = false ∨ A.Clean) (m : Move k) (s : TabuState σ k) :
    tryMove ops keep A m s = Region.tryMove ops A.nonzero m s := by
  unfold tryMove Region.tryMove
  simp only [tabuMakeMove_eq h]

theorem basicElse_eq (h : keep = false ∨ A.Clean) (best : Option (Nat × Move k × ℚ))
    (s : TabuState σ k) :
    basicElse ops obj attr keep A best s = Region.basicElse ops obj attr A.nonzero best s := by
  unfold basicElse Region.basicElse aspiration Region.aspiration
  simp only [tryMove_eq ops h]
  rfl

theorem basicRound_eq (h : keep = false ∨ A.Clean) (s : TabuState σ k) :
    basicRound ops obj attr keep A s = Region.basicRound ops obj attr A.nonzero s := by
  unfold basicRound Region.basicRound
  simp only [tryMove_eq ops h, basicElse_eq ops obj attr h, possibleMoves_eq h]
  rfl

theorem basicLoop_eq (h : keep = false ∨ A.Clean) (reps : Int) (fuel : Nat) : ∀ s : TabuState σ k,
    basicLoop ops obj attr keep A reps fuel s =
      Region.basicLoop ops obj attr A.nonzero reps fuel s := by
  induction fuel with
  | zero => intro s; rfl
  | succ fuel ih =>
    intro s
    unfold basicLoop Region.basicLoop
    simp only [ih, basicRound_eq ops obj attr h]

theorem basicComponent_eq (h : keep = false ∨ A.Clean) (len : Option Nat) (reps : Int) (fuel : Nat)
    (init : Labels k) (strat : σ) (rng : Rng) :
    basicComponent ops obj attr keep A len reps fuel init strat rng =
      Region.basicComponent ops obj attr A.nonzero len reps fuel init strat rng := by
  unfold basicComponent Region.basicComponent
  simp only [basicLoop_eq ops obj attr h]

theorem randomMoves_eq (h : keep = false ∨ A.Clean) (p : Nat) : ∀ (ms : List (Move k))
    (s : TabuState σ k),
    randomMoves ops keep A p ms s = Region.randomMoves ops A.nonzero p ms s := by
  induction p with
  | zero => intro ms s; rfl
  | succ p ih =>
    intro ms s
    unfold randomMoves Region.randomMoves
    simp only [ih, tryMove_eq ops h]

theorem reactRound_eq (h : keep = false ∨ A.Clean) (k1 k2 : Int) (avg : ℚ) (s : TabuState σ k) :
    reactRound ops obj attr keep A k1 k2 avg s =
      Region.reactRound ops obj attr A.nonzero k1 k2 avg s := by
  unfold reactRound Region.reactRound
  simp only [tryMove_eq ops h, possibleMoves_eq h, randomMoves_eq ops h]
  rfl

theorem reactLoop_eq (h : keep = false ∨ A.Clean) (k1 k2 : Int) (avg : ℚ) (it : Nat) :
    ∀ (start : Option ℚ) (last : Option LastStep) (s : TabuState σ k),
    reactLoop ops obj attr keep A k1 k2 avg it start last s =
      Region.reactLoop ops obj attr A.nonzero k1 k2 avg it start last s := by
  induction it with
  | zero => intro start last s; rfl
  | succ it ih =>
    intro start last s
    unfold reactLoop Region.reactLoop
    simp only [ih, reactRound_eq ops obj attr h]

theorem reactComponentList_eq (h : keep = false ∨ A.Clean) (maxIt : Nat) (k1 k2 : Int)
    (init : Labels k) (self : ReactObj σ) :
    reactComponentList ops obj attr keep A maxIt k1 k2 init self =
      Region.reactComponentList ops obj attr A.nonzero maxIt k1 k2 init self := by
  unfold reactComponentList Region.reactComponentList
  simp only [reactLoop_eq ops obj attr h]

end Component

/-! ### The loop over the components -/

variable {σ ρ : Type} {n : Nat}

theorem sub_ok {keep : Bool} {A : Csr n} (h : keep = false ∨ A.Clean) (idx : List (Fin n)) :
    keep = false ∨ (A.sub keep idx).Clean := by
  rcases h with h | h
  · exact Or.inl h
  · exact Or.inr (h.sub keep idx)

theorem fitLoop_eq {keep : Bool} {A : Csr n} (attr : Fin n → ρ)
    {comp : (idx : List (Fin n)) → Csr idx.length → Labels idx.length → (Fin idx.length → ρ) →
      σ → Rng → Res (Labels idx.length × σ × Rng)} {comp' : CompFn σ n ρ}
    (hc : ∀ idx init at' st rng,
      comp idx (A.sub keep idx) init at' st rng = comp' idx (subAdj A.nonzero idx) init at' st rng)
    (gen : Gen n) : ∀ (L : Labels n) (st : σ) (rng : Rng),
      fitLoop keep A attr comp gen L st rng = Region.fitLoop A.nonzero attr comp' gen L st rng := by
  induction gen with
  | nil => intro L st rng; rfl
  | cons s ss ih =>
    intro L st rng
    unfold fitLoop Region.fitLoop fitStep Region.fitStep
    simp only [ih, hc]
    rfl

/-- From given labels: the weights do not matter. -/
theorem fitWith_some_eq (o : Order) (o' : MstOrder) (keep : Bool) {A : Csr n} (h : A.Clean)
    (attr : Fin n → ρ)
    {comp : (idx : List (Fin n)) → Csr idx.length → Labels idx.length → (Fin idx.length → ρ) →
      σ → Rng → Res (Labels idx.length × σ × Rng)} {comp' : CompFn σ n ρ}
    (hc : ∀ idx init at' st rng,
      comp idx (A.sub keep idx) init at' st rng = comp' idx (subAdj A.nonzero idx) init at' st rng)
    (p : Int) (init : Labels n) (st : σ) (rng : Rng) :
    fitWith o keep A attr comp p (some init) st rng =
      Region.fitWith o' A.nonzero attr comp' p (some init) st rng := by
  unfold fitWith Region.fitWith
  simp only [fitLoop_eq attr hc, assertFeasible_eq (Or.inr h), separateComponents, h.stored]

/-- On a connected map the start from scratch is the one of the pattern with some order of the links. -/
theorem generateInitialSol_connected (o : Order) (keep : Bool) {A : Csr n} (h : A.Clean)
    (hcon : Connected A.nonzero) :
    ∃ o' : MstOrder, ∀ p r,
      A.generateInitialSol o keep p r = Region.generateInitialSol o' A.nonzero p r := by
  obtain ⟨o', ho⟩ := divideComponent_eq o keep h 0
  refine ⟨o', fun p r => ?_⟩
  have hone := (nComponents_eq_one_iff A.nonzero).2 hcon
  have hz : ∀ v, compLabels A.nonzero v = 0 := by
    intro v
    have := compLabels_lt A.nonzero v
    omega
  have hdiv : ∀ c, divideComponent o keep A c = Region.divideComponent o' A.nonzero c := by
    intro c
    by_cases hc : c = 0
    · subst hc; funext k built r; exact ho k built r
    · have hw : whereEq (compLabels A.nonzero) c = [] := by
        unfold whereEq
        rw [List.filter_eq_nil_iff]
        intro v _
        simp only [hz, decide_eq_true_eq]
        omega
      funext k built r
      unfold divideComponent Region.divideComponent
      rw [h.stored]
      have key : ∀ nodes : List (Fin n), nodes = [] → ∀ k r,
          randomlyDivide o (A.sub keep nodes) k r =
            Region.randomlyDivide o' (subAdj A.nonzero nodes) k r := by
        rintro _ rfl k r
        have h1 : (A.sub keep []).mst o = [] := List.eq_nil_iff_forall_not_mem.2 fun e _ => e.1.elim0
        have h2 : o'.mst (subAdj A.nonzero []) = [] :=
          List.eq_nil_iff_forall_not_mem.2 fun e _ => e.1.elim0
        unfold randomlyDivide Region.randomlyDivide
        rw [h1, h2]
      simp only [key _ hw]
  have hsteps : ∀ (d : IntDict) (cs : List Nat) (built : Int),
      divideSteps o keep A d cs built = Region.divideSteps o' A.nonzero d cs built := by
    intro d cs
    induction cs with
    | nil => intro built; rfl
    | cons c cs ih => intro built; simp only [divideSteps, Region.divideSteps, ih, hdiv]
  unfold generateInitialSol Region.generateInitialSol
  simp only [h.stored, hsteps]

theorem fitWith_connected (o : Order) (keep : Bool) {A : Csr n} (h : A.Clean)
    (hcon : Connected A.nonzero) :
    ∃ o' : MstOrder, ∀ {σ ρ : Type} (attr : Fin n → ρ)
      (comp : (idx : List (Fin n)) → Csr idx.length → Labels idx.length → (Fin idx.length → ρ) →
        σ → Rng → Res (Labels idx.length × σ × Rng)) (comp' : CompFn σ n ρ),
      (∀ idx init at' st rng, comp idx (A.sub keep idx) init at' st rng =
        comp' idx (subAdj A.nonzero idx) init at' st rng) →
      ∀ (p : Int) (initial : Option (Labels n)) (st : σ) (rng : Rng),
        fitWith o keep A attr comp p initial st rng =
          Region.fitWith o' A.nonzero attr comp' p initial st rng := by
  obtain ⟨o', ho⟩ := generateInitialSol_connected o keep h hcon
  refine ⟨o', fun attr comp comp' hc p initial st rng => ?_⟩
  cases initial with
  | some init => exact fitWith_some_eq o o' keep h attr hc p init st rng
  | none =>
    unfold fitWith Region.fitWith
    simp only [ho, fitLoop_eq attr hc]

/-- From scratch, on any map: the loop over the components runs on a clustering into contiguous
regions (as `fitWith_post`). -/
theorem fitWith_none_post (o : Order) (keep : Bool) {A : Csr n} (h : A.Clean) {attr : Fin n → ρ}
    {comp : (idx : List (Fin n)) → Csr idx.length → Labels idx.length → (Fin idx.length → ρ) →
      σ → Rng → Res (Labels idx.length × σ × Rng)} {comp' : CompFn σ n ρ}
    (hc : ∀ idx init at' st rng,
      comp idx (A.sub keep idx) init at' st rng = comp' idx (subAdj A.nonzero idx) init at' st rng)
    {S : σ → Prop} {Q : (idx : List (Fin n)) → Labels idx.length → Labels idx.length → Prop}
    {R T : Prop} (nRegions : Int)
    (hstart : ¬ R → 0 < n ∧ nRegions ≤ n ∧ nRegions ≠ 1 ∧ (nComponents A.nonzero : Int) ≤ nRegions)
    (hstep : ∀ lab, StartsFrom A.nonzero nRegions none lab → ∀ c, c < nComponents A.nonzero →
      StepOk A.nonzero attr comp' S Q R T (compArray A.nonzero lab c))
    (st : σ) (hst : S st) (rng : Rng) :
    (fitWith o keep A attr comp nRegions none st rng).Post R T fun q =>
      S q.2.1 ∧ ∃ lab, StartsFrom A.nonzero nRegions none lab ∧
        Fitted Q (Region.separateComponents A.nonzero lab) (fun _ => -1) q.1 := by
  unfold fitWith
  simp only [fitLoop_eq attr hc]
  by_cases hok : 0 < n ∧ nRegions ≤ n ∧ nRegions ≠ 1 ∧ (nComponents A.nonzero : Int) ≤ nRegions
  · obtain ⟨hn, hp, hp1, hcomp⟩ := hok
    obtain ⟨gen, r', h1, h2, h3⟩ := generateInitialSol_spec o keep h nRegions rng hn hp hp1 hcomp
    rw [h1, Res.bind_ok]
    have hsf : ∀ lab : Labels n, AllContiguous A.nonzero lab →
        (∀ v, 0 ≤ lab v ∧ lab v < nRegions) →
        (∀ x, 0 ≤ x → x < nRegions → ∃ v, lab v = x) → StartsFrom A.nonzero nRegions none lab :=
      fun lab e2 e3 e4 => ⟨e2, numRegions_Ico (by omega) e3 e4, e3⟩
    apply (fitLoop_post (Q := Q) (R := R) (T := T) _ ?_ _ st r' hst).mono id id
    · rintro q ⟨hs, ys, hys, hf⟩
      obtain ⟨lab, e1, e2, e3, e4⟩ := h3 ys hys
      subst e1
      exact ⟨hs, lab, hsf lab e2 e3 e4, hf⟩
    · intro s hs r
      obtain ⟨y, r1, hy⟩ := h2 s hs r
      refine ⟨y, r1, hy, ?_⟩
      -- complete the array to a full run of the generator
      obtain ⟨c, hc, rfl⟩ := List.mem_iff_getElem.1 hs
      choose f hf using fun i : Fin gen.length => h2 (gen.get i) (List.get_mem _ _) r
      let ys := (List.finRange gen.length).map fun i => if i.val = c then y else f i
      have hys : List.Forall₂ Yields gen ys := by
        rw [List.forall₂_iff_get]
        refine ⟨by simp [ys], ?_⟩
        intro i hi1 hi2
        simp only [ys, List.get_eq_getElem, List.getElem_map, List.getElem_finRange]
        split_ifs with hic
        · simp only [Fin.val_cast] at hic
          subst hic; exact ⟨r, r1, hy⟩
        · obtain ⟨r2, h⟩ := hf ⟨i, hi1⟩
          exact ⟨r, r2, h⟩
      obtain ⟨lab, e1, e2, e3, e4⟩ := h3 ys hys
      have hylen : ys.length = gen.length := by simp [ys]
      have hyc : ys[c]'(by rw [hylen]; exact hc) = y := by simp [ys]
      have hclt : c < nComponents A.nonzero := by
        rw [← separateComponents_length A.nonzero lab, ← e1, hylen]; exact hc
      have : y = compArray A.nonzero lab c := by
        rw [← hyc]
        have : ys[c]'(by rw [hylen]; exact hc) =
          (Region.separateComponents A.nonzero lab)[c]'(by
            rw [separateComponents_length]; exact hclt) := by
          congr 1
        rw [this, separateComponents_getElem]; rfl
      rw [this]
      exact hstep lab (hsf lab e2 e3 e4) c hclt
  · have hR : R := by
      by_contra hR
      exact hok (hstart hR)
    unfold generateInitialSol
    rw [h.stored]
    split_ifs with g1 g2 g3 g4
    · exact hR
    · exact hR
    · exact hR
    · exact hR
    · exact absurd ⟨by omega, by omega, g3, by omega⟩ hok

/-! ### The four classes -/

theorem azpComp_eq {q : Nat} {keep : Bool} {A : Csr n} (h : keep = false ∨ A.Clean) (expf : ℚ → ℚ)
    (obj : Objective ρ) (fuel : Nat) (idx : List (Fin n)) (init : Labels idx.length)
    (at' : Fin idx.length → ρ) (st : Strat n q) (rng : Rng) :
    azpComp expf obj fuel keep idx (A.sub keep idx) init at' st rng =
      Region.azpComp expf obj fuel idx (subAdj A.nonzero idx) init at' st rng := by
  unfold azpComp Region.azpComp
  rw [azpComponent_eq (sub_ok h idx), nonzero_sub]

theorem basicComp_eq {q : Nat} {keep : Bool} {A : Csr n} (h : keep = false ∨ A.Clean) (expf : ℚ → ℚ)
    (obj : Objective ρ) (fuel : Nat) (len : Option Nat) (reps : Int) (idx : List (Fin n))
    (init : Labels idx.length) (at' : Fin idx.length → ρ) (st : Strat n q) (rng : Rng) :
    basicComponent (Strat.ops expf (fun i => idx.get i) at' obj) obj at' keep (A.sub keep idx) len reps
        fuel init (st.start (obj.call init at')) rng =
      Region.basicComponent (Strat.ops expf (fun i => idx.get i) at' obj) obj at'
        (subAdj A.nonzero idx) len reps fuel init (st.start (obj.call init at')) rng := by
  rw [basicComponent_eq _ _ _ (sub_ok h idx), nonzero_sub]

/-- Two component routines that agree on the labels. -/
theorem saInner_congr
    {f g : Option (Labels n) → Strat n 0 → Rng → Res (Labels n × Strat n 0 × Rng)}
    (h : ∀ L st rng, f (some L) st rng = g (some L) st rng) (maxIt : Option Int) (fuel : Nat) :
    ∀ (it : Nat) (L : Labels n) (st : Strat n 0) (rng : Rng),
      saInner f maxIt fuel it (some L) st rng = saInner g maxIt fuel it (some L) st rng ∧
      ∀ q, saInner f maxIt fuel it (some L) st rng = .ok q → ∃ L', q.1 = some L' := by
  induction fuel with
  | zero =>
    intro it L st rng
    unfold saInner
    split_ifs
    · exact ⟨rfl, fun q h => by cases h⟩
    · exact ⟨rfl, fun q h => by cases h; exact ⟨L, rfl⟩⟩
  | succ fuel ih =>
    intro it L st rng
    unfold saInner
    split_ifs
    · dsimp only
      rw [h]
      cases hg : g (some L) st rng with
      | ok x =>
        obtain ⟨new, st', rng'⟩ := x
        simp only [Res.bind_ok]
        split_ifs
        · exact ⟨rfl, fun q h => by cases h; exact ⟨new, rfl⟩⟩
        · exact ih (it + 1) new st' rng'
      | raise e => exact ⟨rfl, fun q h => by cases h⟩
      | timeout => exact ⟨rfl, fun q h => by cases h⟩
    · exact ⟨rfl, fun q h => by cases h; exact ⟨L, rfl⟩⟩

theorem saOuter_congr
    {f g : Option (Labels n) → Strat n 0 → Rng → Res (Labels n × Strat n 0 × Rng)}
    (h : ∀ L st rng, f (some L) st rng = g (some L) st rng) (P : SaParams) (cooling : ℚ)
    (innerFuel fuel : Nat) :
    ∀ (t : ℚ) (nm : Nat) (L : Labels n) (visited : List (List Int)) (st : Strat n 0) (rng : Rng),
      saOuter f P cooling innerFuel fuel t nm (some L) visited st rng =
        saOuter g P cooling innerFuel fuel t nm (some L) visited st rng := by
  induction fuel with
  | zero => intro t nm L visited st rng; unfold saOuter; rfl
  | succ fuel ih =>
    intro t nm L visited st rng
    unfold saOuter
    split_ifs
    · dsimp only
      obtain ⟨h1, h2⟩ := saInner_congr h P.maxIt innerFuel 0 L st.saReset rng
      rw [h1] at h2 ⊢
      cases hg : saInner g P.maxIt innerFuel 0 (some L) st.saReset rng with
      | ok x =>
        obtain ⟨cur, st', rng'⟩ := x
        obtain ⟨L', hL⟩ := h2 _ hg
        dsimp only at hL
        subst hL
        simp only [Res.bind_ok, ih]
      | raise e => rfl
      | timeout => rfl
    · rfl

/-! ### Islands of a larger graph

If indexing drops stored zeros, everything but the split into components looks at the values; the
components are unions of islands. -/

theorem pathIn_le {n : Nat} {adj big : Adj n} (hle : ∀ a b, adj a b = true → big a b = true)
    {S : Set (Fin n)} {a b : Fin n} (h : PathIn adj S a b) : PathIn big S a b :=
  rtg_mono (fun _ _ h => ⟨h.1, h.2.1, h.2.2.imp (hle _ _) (hle _ _)⟩) h

theorem comp_contiguous_of_le {n : Nat} {adj big : Adj n}
    (hle : ∀ a b, adj a b = true → big a b = true) {lab : Labels n} (hc : AllContiguous adj lab)
    (c : Nat) :
    AllContiguous (subAdj adj (shown (compArray big lab c)))
      (fun i => lab ((shown (compArray big lab c)).get i)) := by
  intro v
  generalize hidx : shown (compArray big lab c) = idx at v ⊢
  have hmem : ∀ x, x ∈ idx ↔ compLabels big x = c ∧ lab x ≠ -1 := by
    intro x; rw [← hidx, mem_shown, compArray_ne]
  have hnd : idx.Nodup := hidx ▸ shown_nodup _
  refine ⟨⟨v, rfl⟩, ?_⟩
  intro a ha b hb
  have ha : lab (idx.get a) = lab (idx.get v) := ha
  have hb : lab (idx.get b) = lab (idx.get v) := hb
  have hsub : regionOf lab (lab (idx.get v)) ⊆ {x | x ∈ idx} := by
    intro x hx
    have hp := (hc (idx.get v)).2 (idx.get v) rfl x hx
    have hx' : lab x = lab (idx.get v) := hx
    have hv := (hmem _).1 (List.get_mem idx v)
    rw [Set.mem_ofPred_eq, hmem, hx']
    exact ⟨by rw [← hv.1, compLabels_eq_iff]; exact sameIsland_symm (pathIn_sameIsland (pathIn_le hle hp)), hv.2⟩
  obtain ⟨j, hj, hp⟩ := pathIn_restrict hsub ((hc (idx.get v)).2 _ ha _ hb) a rfl
  have : j = b := by
    apply Fin.ext
    have := hnd.injective_get hj
    rw [this]
  subst this
  exact hp

theorem feasible_of_keeps {n : Nat} {adj big : Adj n}
    (hle : ∀ a b, adj a b = true → big a b = true) {lab L' : Labels n} (hc : AllContiguous adj lab)
    (h1 : ∀ v, lab v = -1 → L' v = -1)
    (h2 : ∀ c, c < nComponents big →
      KeepsRegions (subAdj adj (shown (compArray big lab c)))
        (fun i => lab ((shown (compArray big lab c)).get i))
        (fun i => L' ((shown (compArray big lab c)).get i))) :
    AllContiguous adj L' ∧ ∀ x, (∃ i, L' i = x) ↔ ∃ i, lab i = x := by
  have hmem : ∀ c x, x ∈ shown (compArray big lab c) ↔ compLabels big x = c ∧ lab x ≠ -1 := by
    intro c x; rw [mem_shown, compArray_ne]
  -- labels of a component stay in the component
  have hfrom : ∀ v, lab v ≠ -1 → ∃ u, compLabels big u = compLabels big v ∧ lab u ≠ -1 ∧
      lab u = L' v := by
    intro v hv
    obtain ⟨i, hi⟩ := List.get_of_mem ((hmem (compLabels big v) v).2 ⟨rfl, hv⟩)
    obtain ⟨j, hj⟩ := ((h2 _ (compLabels_lt big v)).2 (L' v)).1 ⟨i, by dsimp only; rw [hi]⟩
    have := (hmem _ _).1 (List.get_mem (shown (compArray big lab (compLabels big v))) j)
    exact ⟨_, this.1, this.2, hj⟩
  have hto : ∀ v, lab v ≠ -1 → ∃ u, L' u = lab v := by
    intro v hv
    obtain ⟨i, hi⟩ := List.get_of_mem ((hmem (compLabels big v) v).2 ⟨rfl, hv⟩)
    obtain ⟨j, hj⟩ := ((h2 _ (compLabels_lt big v)).2 (lab v)).2 ⟨i, by dsimp only; rw [hi]⟩
    exact ⟨_, hj⟩
  have hfr : ∀ v, L' v = -1 ↔ lab v = -1 := by
    intro v
    refine ⟨fun h => ?_, h1 v⟩
    by_contra hv
    obtain ⟨u, _, h3, h4⟩ := hfrom v hv
    exact h3 (h4.trans h)
  refine ⟨?_, ?_⟩
  · intro v
    by_cases hv : lab v = -1
    · have : regionOf L' (L' v) = regionOf lab (lab v) := by
        ext x
        change L' x = L' v ↔ lab x = lab v
        rw [h1 v hv, hv, hfr]
      rw [this]; exact hc v
    · obtain ⟨i, hi⟩ := List.get_of_mem ((hmem (compLabels big v) v).2 ⟨rfl, hv⟩)
      have hk := (h2 _ (compLabels_lt big v)).1 i
      dsimp only at hk
      rw [hi] at hk
      refine ⟨⟨v, rfl⟩, ?_⟩
      have hsame : ∀ x, L' x = L' v →
          x ∈ shown (compArray big lab (compLabels big v)) := by
        intro x hx
        have hx0 : lab x ≠ -1 := by
          rw [Ne, ← hfr, hx, hfr]; exact hv
        obtain ⟨u, hu1, hu2, hu3⟩ := hfrom v hv
        obtain ⟨w, hw1, hw2, hw3⟩ := hfrom x hx0
        have huw : lab u = lab w := by rw [hu3, hw3, hx]
        have hp := (hc u).2 u rfl w huw.symm
        rw [hmem]
        refine ⟨?_, hx0⟩
        rw [← hw1, ← hu1]
        exact (compLabels_eq_iff big _ _).2 (sameIsland_symm (pathIn_sameIsland (pathIn_le hle hp)))
      intro a ha b hb
      obtain ⟨ia, hia⟩ := List.get_of_mem (hsame a ha)
      obtain ⟨ib, hib⟩ := List.get_of_mem (hsame b hb)
      have ha' : L' a = L' v := ha
      have hb' : L' b = L' v := hb
      have := hk.2 ia (by change L' _ = _; rw [hia, ha']) ib (by change L' _ = _; rw [hib, hb'])
      rw [← hia, ← hib]
      exact pathIn_lift (fun i hi => hi) this
  · intro x
    constructor
    · rintro ⟨v, rfl⟩
      by_cases hv : lab v = -1
      · exact ⟨v, by rw [hv, h1 v hv]⟩
      · obtain ⟨u, _, _, hu⟩ := hfrom v hv
        exact ⟨u, hu⟩
    · rintro ⟨v, rfl⟩
      by_cases hv : lab v = -1
      · exact ⟨v, by rw [hv, h1 v hv]⟩
      · exact hto v hv

theorem nonzero_le_stored (A : Csr n) (a b : Fin n) (h : A.nonzero a b = true) :
    A.stored a b = true := by
  rw [stored_iff]
  obtain ⟨w, hw, _⟩ := (nonzero_iff A a b).1 h
  exact ⟨w, hw⟩

/-- From given labels with stored zeros that indexing drops: `fit` runs over the components of the
stored entries, with the routine for the components that looks at the values. -/
theorem fitWith_dropped (o : Order) (o' : MstOrder) (A : Csr n) (attr : Fin n → ρ)
    {comp : (idx : List (Fin n)) → Csr idx.length → Labels idx.length → (Fin idx.length → ρ) →
      σ → Rng → Res (Labels idx.length × σ × Rng)} {comp' : CompFn σ n ρ}
    (hc : ∀ idx init at' st rng,
      comp idx (A.sub false idx) init at' st rng = comp' idx (subAdj A.nonzero idx) init at' st rng)
    (p : Int) (init : Labels n) (hi : AllContiguous A.nonzero init)
    (hp : (numRegions init : Int) = p) (st : σ) (rng : Rng) :
    fitWith o false A attr comp p (some init) st rng =
      Region.fitWith o' A.stored attr
        (fun idx _ init at' st rng => comp' idx (subAdj A.nonzero idx) init at' st rng) p (some init)
        st rng := by
  have h1 : Region.assertFeasible init A.nonzero (some p) = .ok () := by
    unfold Region.assertFeasible
    dsimp only
    rw [length_unique_labels, if_neg (not_not.2 hp), assertLoop_ok_iff]
    exact (allContiguous_iff _ _).2 hi
  have h2 : Region.assertFeasible init A.stored (some p) = .ok () := by
    unfold Region.assertFeasible
    dsimp only
    rw [length_unique_labels, if_neg (not_not.2 hp), assertLoop_ok_iff]
    refine (allContiguous_iff _ _).2 fun v => ⟨(hi v).1, fun a ha b hb => ?_⟩
    exact pathIn_le (nonzero_le_stored A) ((hi v).2 a ha b hb)
  have h3 : ∀ (gen : Gen n) (L : Labels n) (st : σ) (rng : Rng),
      Region.fitLoop A.nonzero attr comp' gen L st rng = Region.fitLoop A.stored attr
        (fun idx _ init at' st rng => comp' idx (subAdj A.nonzero idx) init at' st rng) gen L st
          rng := by
    intro gen
    induction gen with
    | nil => intro L st rng; rfl
    | cons s ss ih =>
      intro L st rng
      unfold Region.fitLoop Region.fitStep
      simp only [ih]
  unfold fitWith Region.fitWith
  simp only [fitLoop_eq attr hc, assertFeasible_eq (Or.inl rfl), h1, h2, h3, separateComponents]

end Region.Csr
