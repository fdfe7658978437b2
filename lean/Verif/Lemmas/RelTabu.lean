import Verif.Lemmas.Rel
/-
Two runs of the tabu searches and of the max-p heuristic side by side.
-/
namespace Region
open Res

/-! ### Tabu -/

section tabu
variable {σ τ : Type} {k : Nat} {ρ ρ' : Type} {c : ℚ} {SR : σ → τ → Prop} {ops : StratOps σ k}
  {ops' : StratOps τ k} {obj : Objective ρ} {obj' : Objective ρ'} {attr : Fin k → ρ}
  {attr' : Fin k → ρ'}

/-- The states of the tabu searches correspond. -/
structure TabuState.Corr (SR : σ → τ → Prop) (s : TabuState σ k) (s' : TabuState τ k) : Prop where
  labels : s.labels = s'.labels
  tabu : s.tabu = s'.tabu
  visited : s.visited = s'.visited
  stop : s.stop = s'.stop
  strat : SR s.strat s'.strat
  rng : s.rng = s'.rng

/-- The best move in other units. -/
def scaleBest (c : ℚ) (b : Option (Nat × Move k × ℚ)) : Option (Nat × Move k × ℚ) :=
  b.map fun x => (x.1, x.2.1, c * x.2.2)

theorem updateOf_rel (h : Scales c obj obj' attr attr') (labels : Labels k) (m : Move k) :
    Rel (fun d d' => d' = c * d) (updateOf obj attr labels m) (updateOf obj' attr' labels m) := by
  unfold updateOf
  rw [h.update]
  cases obj.update m.area m.new labels attr <;> rfl

theorem bestMove_rel (hc : 0 < c) (h : Scales c obj obj' attr attr') (labels : Labels k) :
    ∀ (ms : List (Move k)) (i : Nat) (best : Option (Nat × Move k × ℚ)),
      Rel (fun b b' => b' = scaleBest c b) (bestMove obj attr labels ms i best)
        (bestMove obj' attr' labels ms i (scaleBest c best)) := by
  intro ms
  induction ms with
  | nil => intro i best; rfl
  | cons m ms ih =>
    intro i best
    unfold bestMove
    refine Rel.bind (updateOf_rel h labels m) ?_
    intro d d' hd
    subst hd
    cases best with
    | none => exact ih (i + 1) (some (i, m, d))
    | some x =>
      obtain ⟨j, m', d'⟩ := x
      simp only [scaleBest, Option.map_some, mul_lt_mul_iff_right₀ hc]
      split_ifs
      · exact ih (i + 1) (some (i, m, d))
      · exact ih (i + 1) (some (j, m', d'))

theorem improvingTabus_rel (hc : 0 < c) (h : Scales c obj obj' attr attr') (labels : Labels k) :
    ∀ ms : List (Move k), improvingTabus obj' attr' labels ms = improvingTabus obj attr labels ms := by
  intro ms
  induction ms with
  | nil => rfl
  | cons m ms ih =>
    unfold improvingTabus
    rw [ih]
    have := updateOf_rel h labels m
    revert this
    generalize updateOf obj attr labels m = x
    generalize updateOf obj' attr' labels m = y
    intro this
    have hneg : ∀ d : ℚ, c * d < 0 ↔ d < 0 := fun d => by
      rw [← mul_zero c, mul_lt_mul_iff_right₀ hc, mul_zero]
    cases x <;> cases y <;> first
      | exact this.elim
      | (cases this; simp only [Res.bind_ok, hneg])

theorem tryMove_rel (ho : Alike c SR ops ops') (adj : Adj k) (m : Move k) {s : TabuState σ k}
    {s' : TabuState τ k} (h : s.Corr SR s') :
    Rel (fun x y => x.1 = y.1 ∧ x.2.Corr SR y.2) (tryMove ops adj m s) (tryMove ops' adj m s') := by
  obtain ⟨l, tb, v, sp, st, rg⟩ := s
  obtain ⟨l', tb', v', sp', st', rg'⟩ := s'
  obtain ⟨h1, h2, h3, h4, h5, h6⟩ := h
  dsimp only at h1 h2 h3 h4 h5 h6
  subst h1 h2 h3 h4 h6
  unfold tryMove
  refine Rel.bind (ho.call _ _ h5 m.area m.new l rg) ?_
  rintro ⟨b, st, rg⟩ ⟨b', st', rg'⟩ ⟨h1, h2, h3⟩
  dsimp only at h1 h2 h3 ⊢
  subst h1 h3
  cases b with
  | true =>
    refine Rel.same _ fun x => ?_
    exact ⟨rfl, rfl, rfl, rfl, rfl, h2, rfl⟩
  | false => exact ⟨rfl, rfl, rfl, rfl, rfl, h2, rfl⟩

theorem aspiration_rel (ho : Alike c SR ops ops') (h : Scales c obj obj' attr attr') (adj : Adj k)
    {s : TabuState σ k} {s' : TabuState τ k} (hs : s.Corr SR s') :
    Rel (TabuState.Corr SR) (aspiration ops obj attr adj s) (aspiration ops' obj' attr' adj s') := by
  unfold aspiration
  rw [improvingTabus_rel ho.pos h, ← hs.labels, ← hs.tabu, ← hs.rng]
  refine Rel.same _ fun moves => ?_
  split_ifs
  · exact hs
  · refine Rel.same _ fun p => ?_
    obtain ⟨m, rng⟩ := p
    exact Rel.bind (tryMove_rel ho adj m ⟨rfl, rfl, hs.visited, hs.stop, hs.strat, rfl⟩)
      fun _ _ h => h.2

theorem basicElse_rel (ho : Alike c SR ops ops') (h : Scales c obj obj' attr attr') (adj : Adj k)
    (best : Option (Nat × Move k × ℚ)) {s : TabuState σ k} {s' : TabuState τ k}
    (hs : s.Corr SR s') :
    Rel (fun x y => x.1 = y.1 ∧ x.2.Corr SR y.2) (basicElse ops obj attr adj best s)
      (basicElse ops' obj' attr' adj (scaleBest c best) s') := by
  unfold basicElse
  refine Rel.bind (aspiration_rel ho h adj hs) ?_
  intro t t' ht
  rw [← ht.stop]
  split_ifs
  · exact ⟨rfl, ht⟩
  · cases best with
    | none => exact ⟨rfl, ht⟩
    | some x =>
      obtain ⟨i, m, d⟩ := x
      exact Rel.bind (tryMove_rel ho adj m ht) fun _ _ h => ⟨rfl, h.2⟩

theorem basicRound_rel (ho : Alike c SR ops ops') (h : Scales c obj obj' attr attr') (adj : Adj k)
    {s : TabuState σ k} {s' : TabuState τ k} (hs : s.Corr SR s') :
    Rel (fun x y => x.1 = y.1 ∧ x.2.Corr SR y.2) (basicRound ops obj attr adj s)
      (basicRound ops' obj' attr' adj s') := by
  unfold basicRound
  rw [← hs.labels, ← hs.tabu]
  refine Rel.bind (bestMove_rel ho.pos h s.labels (possibleMoves adj s.labels s.tabu) 0 none) ?_
  rintro best best' rfl
  cases best with
  | none => exact basicElse_rel ho h adj none hs
  | some x =>
    obtain ⟨i, m, d⟩ := x
    have hle : c * d ≤ 0 ↔ d ≤ 0 := by
      rw [← mul_zero c, mul_le_mul_iff_right₀ ho.pos, mul_zero]
    simp only [scaleBest, Option.map_some, hle]
    split_ifs
    · refine Rel.bind (tryMove_rel ho adj m hs) ?_
      rintro ⟨b, t⟩ ⟨b', t'⟩ ⟨h1, h2⟩
      dsimp only at h1 h2 ⊢
      subst h1
      cases b with
      | true => exact ⟨rfl, h2⟩
      | false => exact basicElse_rel ho h adj (some (i, m, d)) h2
    · exact basicElse_rel ho h adj (some (i, m, d)) hs

theorem basicLoop_rel (ho : Alike c SR ops ops') (h : Scales c obj obj' attr attr') (adj : Adj k)
    (reps : Int) : ∀ (fuel : Nat) {s : TabuState σ k} {s' : TabuState τ k}, s.Corr SR s' →
      Rel (TabuState.Corr SR) (basicLoop ops obj attr adj reps fuel s)
        (basicLoop ops' obj' attr' adj reps fuel s') := by
  intro fuel
  induction fuel with
  | zero => intro s s' _; trivial
  | succ fuel ih =>
    intro s s' hs
    unfold basicLoop
    have hn : TabuState.Corr SR (noteVisit reps s) (noteVisit reps s') := by
      unfold noteVisit
      refine ⟨hs.labels, hs.tabu, ?_, ?_, hs.strat, hs.rng⟩
      · rw [hs.labels, hs.visited]
      · rw [hs.labels, hs.visited, hs.stop]
    refine Rel.bind (basicRound_rel ho h adj hn) ?_
    rintro ⟨b, t⟩ ⟨b', t'⟩ ⟨h1, h2⟩
    dsimp only at h1 h2 ⊢
    subst h1
    cases b with
    | true => exact h2
    | false => exact ih h2

theorem basicComponent_rel (ho : Alike c SR ops ops') (h : Scales c obj obj' attr attr') (adj : Adj k)
    (len : Option Nat) (reps : Int) (fuel : Nat) (init : Labels k) {st : σ} {st' : τ}
    (hst : SR st st') (rng : Rng) :
    Rel (SameOut SR) (basicComponent ops obj attr adj len reps fuel init st rng)
      (basicComponent ops' obj' attr' adj len reps fuel init st' rng) := by
  unfold basicComponent
  split_ifs
  · exact ⟨rfl, hst, rfl⟩
  · refine Rel.bind (basicLoop_rel ho h adj reps fuel ⟨rfl, rfl, rfl, rfl, hst, rfl⟩) ?_
    exact fun _ _ h => ⟨h.labels, h.strat, h.rng⟩

theorem randomMoves_rel (ho : Alike c SR ops ops') (adj : Adj k) :
    ∀ (p : Nat) (moves : List (Move k)) {s : TabuState σ k} {s' : TabuState τ k}, s.Corr SR s' →
      Rel (TabuState.Corr SR) (randomMoves ops adj p moves s) (randomMoves ops' adj p moves s') := by
  intro p
  induction p with
  | zero => intro moves s s' hs; exact hs
  | succ p ih =>
    intro moves s s' hs
    unfold randomMoves
    rw [← hs.rng]
    refine Rel.same _ fun x => ?_
    obtain ⟨m, moves, rng⟩ := x
    have hc : TabuState.Corr SR { s with rng := rng } { s' with rng := rng } :=
      ⟨hs.labels, hs.tabu, hs.visited, hs.stop, hs.strat, rfl⟩
    exact Rel.bind (tryMove_rel ho adj m hc) fun _ _ h => ih moves h.2

theorem reactRound_rel (ho : Alike c SR ops ops') (h : Scales c obj obj' attr attr') (adj : Adj k)
    (k1 k2 : Int) (avg : ℚ) {s : TabuState σ k} {s' : TabuState τ k} (hs : s.Corr SR s') :
    Rel (fun x y => x.1 = y.1 ∧ x.2.Corr SR y.2) (reactRound ops obj attr adj k1 k2 avg s)
      (reactRound ops' obj' attr' adj k1 k2 avg s') := by
  unfold reactRound
  dsimp only
  rw [← hs.labels, ← hs.tabu]
  refine Rel.bind (bestMove_rel ho.pos h s.labels (possibleMoves adj s.labels s.tabu) 0 none) ?_
  rintro best best' rfl
  cases best with
  | none => rfl
  | some x =>
    obtain ⟨i, m, d⟩ := x
    simp only [scaleBest, Option.map_some]
    refine Rel.bind (tryMove_rel ho adj m hs) ?_
    rintro ⟨b, t⟩ ⟨b', t'⟩ ⟨h1, h2⟩
    dsimp only at h1 h2 ⊢
    subst h1
    rw [← h2.labels, ← h2.visited]
    have heleven : TabuState.Corr SR { t with visited := [] }
        { t' with labels := t.labels, visited := [] } :=
      ⟨rfl, h2.tabu, rfl, h2.stop, h2.strat, h2.rng⟩
    split_ifs <;> first
      | rfl
      | exact ⟨rfl, rfl, h2.tabu, rfl, h2.stop, h2.strat, h2.rng⟩
      | exact Rel.bind (randomMoves_rel ho adj _ _ heleven) fun _ _ h => ⟨rfl, h⟩

theorem reactLoop_rel (ho : Alike c SR ops ops') (h : Scales c obj obj' attr attr') (adj : Adj k)
    (k1 k2 : Int) (avg : ℚ) : ∀ (it : Nat) (start : Option ℚ) (last : Option LastStep)
      {s : TabuState σ k} {s' : TabuState τ k}, s.Corr SR s' →
      Rel (fun x y => x.1 = y.1 ∧ x.2.Corr SR y.2)
        (reactLoop ops obj attr adj k1 k2 avg it start last s)
        (reactLoop ops' obj' attr' adj k1 k2 avg it (start.map (c * ·)) last s') := by
  intro it
  induction it with
  | zero => intro start last s s' hs; exact ⟨rfl, hs⟩
  | succ it ih =>
    intro start last s s' hs
    unfold reactLoop
    dsimp only
    rw [← hs.labels, h.call, improving_scale ho.pos]
    split_ifs
    · refine Rel.bind (reactRound_rel ho h adj k1 k2 avg hs) ?_
      rintro ⟨b, t⟩ ⟨b', t'⟩ ⟨h1, h2⟩
      dsimp only at h1 h2 ⊢
      subst h1
      exact ih (some (obj.call s.labels attr)) (some b) h2
    · exact ⟨rfl, hs⟩

/-- The attributes of the reactive tabu objects correspond. -/
structure ReactObj.Corr (SR : σ → τ → Prop) (s : ReactObj σ) (s' : ReactObj τ) : Prop where
  visited : s.visited = s'.visited
  avg : s.avg = s'.avg
  repCounter : s.repCounter = s'.repCounter
  strat : SR s.strat s'.strat
  rng : s.rng = s'.rng

theorem reactComponentList_rel (ho : Alike c SR ops ops') (h : Scales c obj obj' attr attr')
    (adj : Adj k) (maxIt : Nat) (k1 k2 : Int) (init : Labels k) {s : ReactObj σ} {s' : ReactObj τ}
    (hs : s.Corr SR s') :
    Rel (fun x y => x.1 = y.1 ∧ x.2.Corr SR y.2)
      (reactComponentList ops obj attr adj maxIt k1 k2 init s)
      (reactComponentList ops' obj' attr' adj maxIt k1 k2 init s') := by
  unfold reactComponentList
  split_ifs
  · exact ⟨rfl, hs⟩
  · rw [← hs.avg]
    refine Rel.bind (reactLoop_rel ho h adj k1 k2 s.avg maxIt none none
      ⟨rfl, rfl, hs.visited, rfl, hs.strat, hs.rng⟩) ?_
    rintro ⟨b, t⟩ ⟨b', t'⟩ ⟨h1, h2⟩
    dsimp only at h1 h2 ⊢
    subst h1
    rw [← h2.visited]
    exact Rel.same _ fun out => ⟨rfl, rfl, rfl, hs.repCounter, h2.strat, h2.rng⟩

end tabu

section fits
variable {n q : Nat} {ρ ρ' : Type} {c : ℚ} {obj : Objective ρ} {obj' : Objective ρ'}
  {attr : Fin n → ρ} {attr' : Fin n → ρ'}

/-- The basic tabu search in other units. -/
theorem basicTabuFit_rel (o : MstOrder) (expf : ℚ → ℚ) (hc : 0 < c)
    (h : ScalesOn c obj obj' attr attr') (fuel : Nat) (len : Option Nat) (reps : Int) (adj : Adj n)
    (p : Int) (initial : Option (Labels n)) {st st' : Strat n q} (hst : Strat.Times c st st')
    (rng : Rng) :
    Rel (SameOut (Strat.Times c))
      (basicTabuFit o expf obj fuel len reps adj attr p initial st rng)
      (basicTabuFit o expf obj' fuel len reps adj attr' p initial st' rng) := by
  unfold basicTabuFit
  refine fitWith_rel ?_ o adj p initial hst rng
  intro idx a init st st' rng hs
  dsimp only
  rw [(h fun i => idx.get i).call]
  exact basicComponent_rel (strat_alike expf _ hc (h fun i => idx.get i)) (h fun i => idx.get i) a len
    reps fuel init hs.start rng

/-- The reactive tabu objects correspond. -/
structure ReactSelf.Corr {σ τ : Type} (SR : σ → τ → Prop) (s : ReactSelf σ) (s' : ReactSelf τ) :
    Prop where
  visited : s.visited = s'.visited
  avg : s.avg = s'.avg
  repCounter : s.repCounter = s'.repCounter
  strat : SR s.strat s'.strat

/-- The reactive tabu search in other units. -/
theorem reactiveTabuFit_rel (o : MstOrder) (expf : ℚ → ℚ) (hc : 0 < c)
    (h : ScalesOn c obj obj' attr attr') (maxIt : Nat) (k1 k2 : Int) (adj : Adj n)
    (p : Int) (initial : Option (Labels n)) {s s' : ReactSelf (Strat n q)}
    (hs : s.Corr (Strat.Times c) s') (rng : Rng) :
    Rel (SameOut (ReactSelf.Corr (Strat.Times c)))
      (reactiveTabuFit o expf obj maxIt k1 k2 adj attr p initial s rng)
      (reactiveTabuFit o expf obj' maxIt k1 k2 adj attr' p initial s' rng) := by
  unfold reactiveTabuFit
  refine fitWith_rel ?_ o adj p initial hs rng
  intro idx a init s s' rng hs
  dsimp only
  rw [(h fun i => idx.get i).call]
  refine Rel.bind (reactComponentList_rel (strat_alike expf _ hc (h fun i => idx.get i))
    (h fun i => idx.get i) a maxIt k1 k2 init
    ⟨hs.visited, hs.avg, hs.repCounter, hs.strat.start, rfl⟩) ?_
  rintro ⟨b, t⟩ ⟨b', t'⟩ ⟨h1, h2⟩
  dsimp only at h1 h2 ⊢
  subst h1
  exact Rel.same _ fun L => ⟨rfl, ⟨h2.visited, h2.avg, h2.repCounter, h2.strat⟩, h2.rng⟩

/-! ### Max-p -/

/-- The metrics differ by the factor `c` on the areas of the map. -/
def MetricTimes (c : ℚ) (metric : ρ → ρ → ℚ) (metric' : ρ' → ρ' → ℚ) (attr : Fin n → ρ)
    (attr' : Fin n → ρ') : Prop :=
  ∀ i j, metric' (attr' i) (attr' j) = c * metric (attr i) (attr j)

variable {metric : ρ → ρ → ℚ} {metric' : ρ' → ρ' → ℚ}

theorem dissimTo_times (hm : MetricTimes c metric metric' attr attr') (a : Fin n)
    (region : List (Fin n)) : dissimTo metric' attr' a region = c * dissimTo metric attr a region :=
  sum_map_scale c _ _ _ fun _ => hm _ _

theorem min_times (hc : 0 < c) (l : List ℚ) : (l.map (c * ·)).min? = l.min?.map (c * ·) := by
  cases h : l.min? with
  | none =>
    rw [List.min?_eq_none_iff] at h
    subst h
    rfl
  | some m =>
    rw [List.min?_eq_some_iff] at h
    simp only [Option.map_some]
    rw [List.min?_eq_some_iff]
    refine ⟨List.mem_map_of_mem h.1, ?_⟩
    intro b hb
    obtain ⟨x, hx, rfl⟩ := List.mem_map.1 hb
    exact (mul_le_mul_iff_right₀ hc).2 (h.2 x hx)

theorem findBestArea_times (hc : 0 < c) (hm : MetricTimes c metric metric' attr attr')
    (region cands : List (Fin n)) (r : Rng) :
    findBestArea metric' attr' region cands r = findBestArea metric attr region cands r := by
  unfold findBestArea
  congr 1
  refine List.filter_congr fun a _ => ?_
  have : (cands.map fun c => dissimTo metric' attr' c region) =
      (cands.map fun c => dissimTo metric attr c region).map (c * ·) := by
    rw [List.map_map]
    exact List.map_congr_left fun x _ => dissimTo_times hm x region
  rw [this, min_times hc, dissimTo_times hm]
  cases (cands.map fun c => dissimTo metric attr c region).min? with
  | none => rfl
  | some m => simp [hc.ne']

variable {spat spat' : Fin n → Fin q → ℚ} {thr thr' : Fin q → ℚ}

theorem reaches_times {d : Fin q → ℚ} (hd : ∀ j, 0 < d j) (ht : ∀ j, thr' j = d j * thr j)
    {s s' : Fin q → ℚ} (hs : ∀ j, s' j = d j * s j) : reaches thr' s' = reaches thr s := by
  unfold reaches
  simp only [ht, hs, mul_le_mul_iff_right₀ (hd _)]

theorem growInner_times (hc : 0 < c) (hm : MetricTimes c metric metric' attr attr') (adj : Adj n)
    {d : Fin q → ℚ} (hd : ∀ j, 0 < d j) (hsp : ∀ i j, spat' i j = d j * spat i j)
    (ht : ∀ j, thr' j = d j * thr j) :
    ∀ fuel region cands s s' un as r, (∀ j, s' j = d j * s j) →
      growInner metric' adj attr' spat' thr' fuel region cands s' un as r =
      growInner metric adj attr spat thr fuel region cands s un as r := by
  intro fuel
  induction fuel with
  | zero =>
    intro region cands s s' un as r hs
    unfold growInner
    rw [reaches_times hd ht hs]
  | succ fuel ih =>
    intro region cands s s' un as r hs
    have hstep : ∀ a : Fin n, ∀ j, s' j + spat' a j = d j * (s j + spat a j) := fun a j => by
      rw [hs, hsp, mul_add]
    unfold growInner
    simp only [fun a region cands un as r =>
      ih region cands (fun j => s j + spat a j) (fun j => s' j + spat' a j) un as r (hstep a),
      findBestArea_times hc hm, reaches_times hd ht hs]

theorem growLoop_times (hc : 0 < c) (hm : MetricTimes c metric metric' attr attr') (adj : Adj n)
    (hq : QuotaTimes spat thr spat' thr') :
    ∀ fuel part encl un as r, growLoop metric' adj attr' spat' thr' fuel part encl un as r =
      growLoop metric adj attr spat thr fuel part encl un as r := by
  obtain ⟨d, hd, hsp, ht⟩ := hq
  intro fuel
  induction fuel with
  | zero => intro part encl un as r; cases un <;> rfl
  | succ fuel ih =>
    intro part encl un as r
    cases un with
    | nil => rfl
    | cons x xs =>
      unfold growLoop
      simp only [ih, fun a => reaches_times hd ht (hsp a),
        fun fuel region cands a un as r => growInner_times hc hm adj hd hsp ht fuel region cands
          (spat a) (spat' a) un as r (hsp a)]

theorem construct_times (hc : 0 < c) (hm : MetricTimes c metric metric' attr attr') (adj : Adj n)
    (hq : QuotaTimes spat thr spat' thr') :
    ∀ it maxP kept r, construct metric' adj attr' spat' thr' it maxP kept r =
      construct metric adj attr spat thr it maxP kept r := by
  intro it
  induction it with
  | zero => intros; rfl
  | succ it ih =>
    intro maxP kept r
    unfold construct growRegions
    simp only [ih, growLoop_times hc hm adj hq]

theorem findBestRegionIdx_times (hc : 0 < c) (hm : MetricTimes c metric metric' attr attr')
    (a : Fin n) (partition : List (List (Fin n))) (idxs : List Nat) (r : Rng) :
    findBestRegionIdx metric' attr' a partition idxs r =
      findBestRegionIdx metric attr a partition idxs r := by
  unfold findBestRegionIdx
  simp only [dissimTo_times hm]
  have : (idxs.eraseDups.map fun i => c * dissimTo metric attr a (partition.getD i [])) =
      (idxs.eraseDups.map fun i => dissimTo metric attr a (partition.getD i [])).map (c * ·) := by
    rw [List.map_map]; rfl
  rw [this, min_times hc]
  cases (idxs.eraseDups.map fun i => dissimTo metric attr a (partition.getD i [])).min? with
  | none => rfl
  | some m => simp [hc.ne']

theorem assignLoop_times (hc : 0 < c) (hm : MetricTimes c metric metric' attr attr') (adj : Adj n) :
    ∀ fuel part encl r, assignLoop metric' adj attr' fuel part encl r =
      assignLoop metric adj attr fuel part encl r := by
  intro fuel
  induction fuel with
  | zero => intro part encl r; cases encl <;> rfl
  | succ fuel ih =>
    intro part encl r
    cases encl with
    | nil => rfl
    | cons e es =>
      unfold assignLoop
      simp only [ih, findBestRegionIdx_times hc hm]

theorem assignAll_times (hc : 0 < c) (hm : MetricTimes c metric metric' attr attr') (adj : Adj n) :
    ∀ l r, assignAll metric' adj attr' l r = assignAll metric adj attr l r := by
  intro l
  induction l with
  | nil => intro r; rfl
  | cons pe rest ih =>
    intro r
    unfold assignAll assignEnclaves
    simp only [ih, assignLoop_times hc hm]

/-- Two local searches behave alike. -/
structure LsAlike {ς ς' : Type} (SR : ς → ς' → Prop) (ls : LocalSearch ς n q)
    (ls' : LocalSearch ς' n q) : Prop where
  wrap : ∀ spat thr spat' thr' st st', QuotaTimes spat thr spat' thr' → SR st st' →
    SR (ls.wrap spat thr st) (ls'.wrap spat' thr' st')
  fit : ∀ p init st st' r, SR st st' →
    Rel (SameOut SR) (ls.fit p init st r) (ls'.fit p init st' r)

/-- The best partition found so far in other units. -/
def scaleValue (c : ℚ) (b : Option (Labels n × ℚ)) : Option (Labels n × ℚ) :=
  b.map fun x => (x.1, c * x.2)

section search
variable {ς ς' : Type} {SR : ς → ς' → Prop} {ls : LocalSearch ς n q} {ls' : LocalSearch ς' n q}

theorem searchInner_rel (hc : 0 < c) (hls : LsAlike SR ls ls') (h : Scales c obj obj' attr attr')
    (maxP : Nat) : ∀ ps best st st' r, SR st st' →
      Rel (fun x y => y.1 = scaleValue c x.1 ∧ SR x.2.1 y.2.1 ∧ x.2.2 = y.2.2)
        (searchInner ls obj attr maxP ps best st r)
        (searchInner ls' obj' attr' maxP ps (scaleValue c best) st' r) := by
  intro ps
  induction ps with
  | nil => intro best st st' r hs; exact ⟨rfl, hs, rfl⟩
  | cons p ps ih =>
    intro best st st' r hs
    unfold searchInner
    refine Rel.same _ fun init => ?_
    refine Rel.bind (hls.fit maxP init st st' r hs) ?_
    rintro ⟨L, s, r⟩ ⟨L', s', r'⟩ ⟨h1, h2, h3⟩
    dsimp only at h1 h2 h3 ⊢
    subst h1 h3
    cases L with
    | none => rfl
    | some L =>
      dsimp only
      rw [h.call]
      cases best with
      | none => exact ih (some (L, obj.call L attr)) s s' r h2
      | some x =>
        obtain ⟨L', v'⟩ := x
        simp only [scaleValue, Option.map_some, mul_lt_mul_iff_right₀ hc]
        split_ifs
        · exact ih (some (L, obj.call L attr)) s s' r h2
        · exact ih (some (L', v')) s s' r h2

theorem searchOuter_rel (hc : 0 < c) (hls : LsAlike SR ls ls') (h : Scales c obj obj' attr attr')
    (maxP : Nat) (hq : QuotaTimes spat thr spat' thr') (feasible : List (List (List (Fin n)))) :
    ∀ rounds best st st' r, SR st st' →
      Rel (fun x y => y.1 = scaleValue c x.1 ∧ SR x.2.1 y.2.1 ∧ x.2.2 = y.2.2)
        (searchOuter ls obj attr maxP spat thr feasible rounds best st r)
        (searchOuter ls' obj' attr' maxP spat' thr' feasible rounds (scaleValue c best) st' r) := by
  intro rounds
  induction rounds with
  | nil => intro best st st' r hs; exact ⟨rfl, hs, rfl⟩
  | cons x rounds ih =>
    intro best st st' r hs
    unfold searchOuter
    refine Rel.bind (searchInner_rel hc hls h maxP feasible best _ _ r 
      (hls.wrap spat thr spat' thr' _ _ hq hs)) ?_
    rintro ⟨b, s, r⟩ ⟨b', s', r'⟩ ⟨h1, h2, h3⟩
    dsimp only at h1 h2 h3 ⊢
    subst h1 h3
    exact ih b s s' r h2

/-- The max-p heuristic in other units. -/
theorem maxpFit_rel (hc : 0 < c) (hm : MetricTimes c metric metric' attr attr')
    (hls : LsAlike SR ls ls') (h : Scales c obj obj' attr attr') (adj : Adj n)
    (hq : QuotaTimes spat thr spat' thr') (maxIt : Nat) {st : ς} {st' : ς'} (hs : SR st st')
    (r : Rng) :
    Rel (fun x y => x.1 = y.1 ∧ x.2.1 = y.2.1 ∧ SR x.2.2.1 y.2.2.1 ∧ x.2.2.2 = y.2.2.2)
      (maxpFit ls metric obj adj attr spat thr maxIt st r)
      (maxpFit ls' metric' obj' adj attr' spat' thr' maxIt st' r) := by
  unfold maxpFit
  rw [construct_times hc hm adj hq]
  refine Rel.same _ fun x => ?_
  obtain ⟨maxP, kept, r⟩ := x
  dsimp only
  rw [assignAll_times hc hm]
  refine Rel.same _ fun x => ?_
  obtain ⟨feasible, r⟩ := x
  refine Rel.bind (searchOuter_rel hc hls h maxP hq feasible feasible none st st' r hs) ?_
  rintro ⟨b, s, r⟩ ⟨b', s', r'⟩ ⟨h1, h2, h3⟩
  dsimp only at h1 h2 h3 ⊢
  subst h1 h3
  refine ⟨rfl, ?_, h2, rfl⟩
  cases b <;> rfl

end search

theorem azpSearch_alike (o : MstOrder) (expf : ℚ → ℚ) (hc : 0 < c)
    (h : ScalesOn c obj obj' attr attr') (fuel : Nat) (adj : Adj n) :
    LsAlike (Strat.Times c) (azpSearch (q := q) o expf obj fuel adj attr)
      (azpSearch o expf obj' fuel adj attr') where
  wrap _ _ _ _ _ _ hq hs := ⟨hq, (mul_zero c).symm, hs⟩
  fit p init st st' r hs := by
    refine Rel.bind (azpFit_rel o expf hc h fuel adj p (some init) hs r) ?_
    rintro ⟨L, s, r⟩ ⟨L', s', r'⟩ ⟨h1, h2, h3⟩
    dsimp only at h1 h2 h3 ⊢
    subst h1 h3
    exact ⟨rfl, h2, rfl⟩

theorem basicTabuSearch_alike (o : MstOrder) (expf : ℚ → ℚ) (hc : 0 < c)
    (h : ScalesOn c obj obj' attr attr') (fuel : Nat) (len : Option Nat) (reps : Int) (adj : Adj n) :
    LsAlike (Strat.Times c) (basicTabuSearch (q := q) o expf obj fuel len reps adj attr)
      (basicTabuSearch o expf obj' fuel len reps adj attr') where
  wrap _ _ _ _ _ _ hq hs := ⟨hq, (mul_zero c).symm, hs⟩
  fit p init st st' r hs := by
    refine Rel.bind (basicTabuFit_rel o expf hc h fuel len reps adj p (some init) hs r) ?_
    rintro ⟨L, s, r⟩ ⟨L', s', r'⟩ ⟨h1, h2, h3⟩
    dsimp only at h1 h2 h3 ⊢
    subst h1 h3
    exact ⟨rfl, h2, rfl⟩

theorem reactiveTabuSearch_alike (o : MstOrder) (expf : ℚ → ℚ) (hc : 0 < c)
    (h : ScalesOn c obj obj' attr attr') (searchIt : Nat) (k1 k2 : Int) (adj : Adj n) :
    LsAlike (ReactSelf.Corr (Strat.Times c))
      (reactiveTabuSearch (q := q) o expf obj searchIt k1 k2 adj attr)
      (reactiveTabuSearch o expf obj' searchIt k1 k2 adj attr') where
  wrap _ _ _ _ _ _ hq hs := ⟨hs.visited, hs.avg, hs.repCounter, hq, (mul_zero c).symm, hs.strat⟩
  fit p init st st' r hs := by
    refine Rel.bind (reactiveTabuFit_rel o expf hc h searchIt k1 k2 adj p (some init) hs r) ?_
    rintro ⟨L, s, r⟩ ⟨L', s', r'⟩ ⟨h1, h2, h3⟩
    dsimp only at h1 h2 h3 ⊢
    subst h1 h3
    exact ⟨rfl, h2, rfl⟩

theorem saSearch_alike (o : MstOrder) (expf : ℚ → ℚ) (hc : 0 < c)
    (h : ScalesOn c obj obj' attr attr') (outerFuel innerFuel azpFuel : Nat) (P : SaParams)
    (adj : Adj n) :
    LsAlike Eq (saSearch (q := q) o expf obj outerFuel innerFuel azpFuel P adj attr)
      (saSearch o expf obj' outerFuel innerFuel azpFuel
        (P.withTemperature (c * P.initTemperature)) adj attr') where
  wrap _ _ _ _ _ _ _ hs := hs
  fit p init st st' r hs := by
    subst hs
    refine Rel.bind (saFit_rel o expf hc h outerFuel innerFuel azpFuel P st adj p (some init) _ r) ?_
    rintro ⟨L, v, s, r⟩ ⟨L', v', s', r'⟩ ⟨h1, h2, h3, h4⟩
    dsimp only at h1 h2 h3 h4 ⊢
    subst h1 h2 h4
    exact ⟨rfl, rfl, rfl⟩

end fits

end Region
