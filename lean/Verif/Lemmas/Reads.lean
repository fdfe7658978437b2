import Verif.Model.MaxPHeu
import Verif.Lemmas.Res
/-
Every run draws only finitely many numbers from the tape and leaves the rest of it: the programs of
the model are prefix-determined in the tape.
-/
namespace Region

/-- The tape after `k` draws. -/
def Rng.drop (k : Nat) (r : Rng) : Rng := fun i => r (i + k)

theorem Rng.drop_drop (k l : Nat) (r : Rng) : (r.drop k).drop l = r.drop (k + l) := by
  funext i
  simp only [Rng.drop]
  congr 1
  omega

/-- On every tape `r`, the program `f` draws some number `k` of values; on a tape starting with the
same `k` values it does the same, and the tape left is the tape without them.  `mk` puts the tape
into the value returned. -/
def Reads {α β : Type} (mk : α → Rng → β) (f : Rng → Res β) : Prop :=
  ∀ r : Rng, ∃ k, ∃ out : Res α, ∀ s : Rng, (∀ i < k, s i = r i) →
    f s = out >>= fun a => .ok (mk a (s.drop k))

namespace Reads

theorem const {α β : Type} {mk : α → Rng → β} (x : Res α) :
    Reads mk fun r => x >>= fun a => .ok (mk a r) :=
  fun _ => ⟨0, x, fun _ _ => rfl⟩

theorem pure {α β : Type} {mk : α → Rng → β} (a : α) : Reads mk fun r => .ok (mk a r) :=
  const (.ok a)

theorem raise {α β : Type} {mk : α → Rng → β} (e : Exc) : Reads mk fun _ => .raise e :=
  const (.raise e)

theorem timeout {α β : Type} {mk : α → Rng → β} : Reads mk fun _ => .timeout :=
  const .timeout

theorem bind {α β γ δ : Type} {mk : α → Rng → β} {mk' : γ → Rng → δ} {f : Rng → Res β}
    {g : β → Res δ} (hf : Reads mk f) (hg : ∀ a, Reads mk' fun r => g (mk a r)) :
    Reads mk' fun r => f r >>= g := by
  intro r
  obtain ⟨k, out, h⟩ := hf r
  cases out with
  | ok a =>
    obtain ⟨k', out', h'⟩ := hg a (r.drop k)
    refine ⟨k + k', out', fun s hs => ?_⟩
    have h1 := h' (s.drop k) (fun i hi => hs (i + k) (by omega))
    try dsimp only at h1 ⊢
    rw [h s fun i hi => hs i (by omega)]
    simp only [Res.bind_ok, h1, Rng.drop_drop]
  | raise e => exact ⟨k, .raise e, fun s hs => by dsimp only; rw [h s hs]; rfl⟩
  | timeout => exact ⟨k, .timeout, fun s hs => by dsimp only; rw [h s hs]; rfl⟩

/-- A first part that does not draw. -/
theorem then_ {α γ δ : Type} {mk' : γ → Rng → δ} (x : Res α) {g : α → Rng → Res δ}
    (hg : ∀ a, Reads mk' (g a)) : Reads mk' fun r => x >>= fun a => g a r := by
  cases x with
  | ok a => exact hg a
  | raise e => exact raise e
  | timeout => exact timeout

theorem ite {α β : Type} {mk : α → Rng → β} {c : Prop} {inst : Rng → Decidable c}
    {f g : Rng → Res β} (hf : c → Reads mk f) (hg : ¬ c → Reads mk g) :
    Reads mk fun r => @_root_.ite _ c (inst r) (f r) (g r) := by
  by_cases h : c
  · simpa only [if_pos h] using hf h
  · simpa only [if_neg h] using hg h

/-- The values already put together differently. -/
theorem mk_mono {α γ β : Type} {mk : α → Rng → β} {mk' : γ → Rng → β} {f : Rng → Res β}
    (h : Reads mk f) (t : α → γ) (ht : ∀ a r, mk a r = mk' (t a) r) : Reads mk' f := by
  intro r
  obtain ⟨k, out, h⟩ := h r
  refine ⟨k, out >>= fun a => .ok (t a), fun s hs => ?_⟩
  rw [h s hs]
  cases out <;> simp [ht]

end Reads

/-- Put the tape behind one value, or behind two. -/
abbrev mk1 {α : Type} : α → Rng → α × Rng := fun a r => (a, r)
abbrev mk2 {α σ : Type} : α × σ → Rng → α × σ × Rng := fun a r => (a.1, a.2, r)

theorem randrange_reads (k : Nat) : Reads mk1 fun rng => randrange k rng := by
  intro r
  by_cases h : k = 0
  · exact ⟨0, .raise (.valueError "empty range for randrange()"), fun s _ => by
      simp [randrange, h]⟩
  · refine ⟨1, .ok (r 0 % k), fun s hs => ?_⟩
    unfold randrange
    try dsimp only
    rw [if_neg h, hs 0 (by omega)]
    rfl

theorem randomElementFrom_reads {α : Type} (lst : List α) :
    Reads mk1 fun rng => randomElementFrom lst rng := by
  unfold randomElementFrom
  try dsimp only
  refine Reads.bind (randrange_reads _) fun pos => ?_
  try dsimp only [mk1]
  cases lst[pos]? with
  | none => exact Reads.raise _
  | some x => exact Reads.pure _

theorem popRandomlyFrom_reads {α : Type} (lst : List α) :
    Reads mk2 fun rng => popRandomlyFrom lst rng := by
  unfold popRandomlyFrom
  try dsimp only
  refine Reads.bind (randrange_reads _) fun pos => ?_
  try dsimp only [mk1]
  cases lst[pos]? with
  | none => exact Reads.raise _
  | some x => exact Reads.pure (mk := mk2) (x, lst.eraseIdx pos)

theorem distributeRest_reads : ∀ (m : Nat) (lst : List Nat) (d : IntDict),
    Reads mk1 fun rng => distributeRest m lst d rng
  | 0, _, d => Reads.pure d
  | m + 1, lst, d => by
    unfold distributeRest
    try dsimp only
    refine Reads.bind (popRandomlyFrom_reads lst) fun x => ?_
    try dsimp only [mk2]
    exact Reads.then_ _ fun d => distributeRest_reads m _ d

theorem distributeRegions_reads (l : List Nat) (p : Int) :
    Reads mk1 fun rng => distributeRegions l p rng := by
  unfold distributeRegions
  try dsimp only
  try dsimp only
  refine Reads.ite (fun _ => Reads.pure _) fun _ => ?_
  exact distributeRest_reads _ _ _

theorem tryLinks_reads {n : Nat} (mst : List (Fin n × Fin n)) : ∀ (t : Nat)
    (best : Option ((Fin n × Fin n) × Nat)), Reads mk1 fun rng => tryLinks mst t best rng
  | 0, best => Reads.pure best
  | t + 1, best => by
    unfold tryLinks
    try dsimp only
    refine Reads.bind (randomElementFrom_reads mst) fun x => ?_
    try dsimp only [mk1]
    cases maxComponentSize (adjOf (mst.erase x)) with
    | none => exact Reads.raise _
    | some m => exact tryLinks_reads mst t _

theorem cutLinks_reads {n : Nat} : ∀ (k : Nat) (mst : List (Fin n × Fin n)),
    Reads mk1 fun rng => cutLinks k mst rng
  | 0, mst => Reads.pure mst
  | k + 1, mst => by
    unfold cutLinks
    try dsimp only
    refine Reads.bind (tryLinks_reads mst 5 none) fun x => ?_
    try dsimp only [mk1]
    cases x with
    | none => exact Reads.raise _
    | some m => exact cutLinks_reads k _

theorem randomlyDivide_reads (o : MstOrder) {n : Nat} (adj : Adj n) (p : Int) :
    Reads mk1 fun rng => randomlyDivide o adj p rng := by
  unfold randomlyDivide
  try dsimp only
  refine Reads.ite (fun _ => Reads.raise _) fun _ => Reads.ite (fun _ => Reads.raise _) fun _ => ?_
  refine Reads.bind (cutLinks_reads _ _) fun x => ?_
  exact Reads.pure (mk := mk1) (compLabels (adjOf x))

theorem divideComponent_reads (o : MstOrder) {n : Nat} (adj : Adj n) (c : Nat) (k b : Int) :
    Reads mk1 fun rng => divideComponent o adj c k b rng := by
  unfold divideComponent
  try dsimp only
  exact Reads.bind (randomlyDivide_reads o _ k) fun x => Reads.pure (mk := mk1) (Yielded.array
    (scatter (whereEq (compLabels adj) c) (fun i => (x i : Int) + b) fun _ => -1))

theorem divideSteps_reads (o : MstOrder) {n : Nat} (adj : Adj n) (d : IntDict) : ∀ (cs : List Nat)
    (b : Int), ∀ step ∈ divideSteps o adj d cs b, Reads mk1 step
  | [], _, _, h => by simp [divideSteps] at h
  | c :: cs, b, step, h => by
    simp only [divideSteps, List.mem_cons] at h
    rcases h with rfl | h
    · exact divideComponent_reads o adj c _ b
    · exact divideSteps_reads o adj d cs _ step h

/-- A property of the values returned, for `Reads`. -/
theorem Reads.bind_of {α β γ δ : Type} {mk : α → Rng → β} {mk' : γ → Rng → δ} {f : Rng → Res β}
    {g : β → Res δ} (hf : Reads mk f) (P : α → Prop) (hP : ∀ r a r', f r = .ok (mk a r') → ∃ a', P a' ∧
      ∀ r, mk a' r = mk a r)
    (hg : ∀ a, P a → Reads mk' fun r => g (mk a r)) : Reads mk' fun r => f r >>= g := by
  intro r
  obtain ⟨k, out, h⟩ := hf r
  cases out with
  | ok a =>
    obtain ⟨a', ha', he⟩ := hP r a (r.drop k) (by rw [h r fun _ _ => rfl]; rfl)
    obtain ⟨k', out', h'⟩ := hg a' ha' (r.drop k)
    refine ⟨k + k', out', fun s hs => ?_⟩
    have h1 := h' (s.drop k) (fun i hi => hs (i + k) (by omega))
    try dsimp only at h1 ⊢
    rw [h s fun i hi => hs i (by omega)]
    rw [he] at h1
    simp only [Res.bind_ok, h1, Rng.drop_drop]
  | raise e => exact ⟨k, .raise e, fun s hs => by dsimp only; rw [h s hs]; rfl⟩
  | timeout => exact ⟨k, .timeout, fun s hs => by dsimp only; rw [h s hs]; rfl⟩

theorem generateInitialSol_reads (o : MstOrder) {n : Nat} (adj : Adj n) (p : Int) :
    Reads mk1 fun rng => generateInitialSol o adj p rng := by
  unfold generateInitialSol
  try dsimp only
  refine Reads.ite (fun _ => Reads.raise _) fun _ => Reads.ite (fun _ => Reads.raise _) fun _ =>
    Reads.ite (fun _ => Reads.pure _) fun _ => Reads.ite (fun _ => Reads.raise _) fun _ => ?_
  exact Reads.bind (distributeRegions_reads _ p) fun x =>
    Reads.pure (mk := mk1) (divideSteps o adj x x.keys 0)

theorem generateInitialSol_steps {o : MstOrder} {n : Nat} {adj : Adj n} {p : Int} {r r' : Rng}
    {gen : Gen n} (h : generateInitialSol o adj p r = .ok (gen, r')) :
    ∀ step ∈ gen, Reads mk1 step := by
  unfold generateInitialSol at h
  split_ifs at h
  · cases h
    intro step hs
    simp only [List.mem_singleton] at hs
    subst hs
    exact Reads.pure _
  · obtain ⟨⟨d, r1⟩, -, h⟩ := Res.bind_eq_ok.1 h
    cases h
    exact divideSteps_reads o adj d d.keys 0

/-! ### The strategies -/

/-- The operations of a strategy are prefix-determined. -/
def StratOps.Reads {σ : Type} {k : Nat} (ops : StratOps σ k) : Prop :=
  ∀ st a r labels, Region.Reads mk2 (ops.call st a r labels)

theorem strat_call_reads {n q : Nat} {ρ : Type} (expf : ℚ → ℚ) {k : Nat} (idx : Fin k → Fin n)
    (attr : Fin k → ρ) (obj : Objective ρ) : ∀ (st : Strat n q) (a : Fin k) (r : Int)
    (labels : Labels k), Reads mk2 fun rng => st.call expf idx attr obj a r labels rng
  | .azp v, a, r, labels => by
    unfold Strat.call
    try dsimp only
    cases obj.update a r labels attr with
    | none => exact Reads.raise _
    | some d =>
      exact Reads.ite (fun _ => Reads.pure (mk := mk2) (true, Strat.azp (v + d)))
        fun _ => Reads.pure (mk := mk2) (false, Strat.azp v)
  | .sa t term m v al mm, a, r, labels => by
    unfold Strat.call
    try dsimp only
    cases obj.update a r labels attr with
    | none => exact Reads.raise _
    | some d =>
      refine Reads.ite (fun _ => Reads.pure (mk := mk2) (true, Strat.sa t term m (v + d) al true))
        fun _ => ?_
      intro rng
      have hb : ∀ s : Rng, (∀ i < 1, s i = rng i) → (Strat.randomLt (Strat.acceptProb expf d t) s).1 =
          (Strat.randomLt (Strat.acceptProb expf d t) rng).1 := by
        intro s hs
        simp [Strat.randomLt, hs 0 (by omega)]
      cases h0 : (Strat.randomLt (Strat.acceptProb expf d t) rng).1 with
      | true =>
        refine ⟨1, .ok (true, .sa t term (m + 1) (v + d) (al || decide (m + 1 ≥ term)) true),
          fun s hs => ?_⟩
        have h1 := hb s hs
        rw [h0] at h1
        have : Strat.randomLt (Strat.acceptProb expf d t) s = (true, s.next) := Prod.ext h1 rfl
        simp only [this]
        rfl
      | false =>
        refine ⟨1, .ok (false, .sa t term m v al mm), fun s hs => ?_⟩
        have h1 := hb s hs
        rw [h0] at h1
        have : Strat.randomLt (Strat.acceptProb expf d t) s = (false, s.next) := Prod.ext h1 rfl
        simp only [this]
        rfl
  | .maxp spat thr v inner, a, r, labels => by
    unfold Strat.call
    try dsimp only
    refine Reads.ite (fun _ => Reads.pure (mk := mk2) (false, Strat.maxp spat thr v inner)) fun _ => ?_
    have ih := strat_call_reads expf idx attr obj inner a r labels
    intro rng
    obtain ⟨k, out, h⟩ := ih rng
    cases out with
    | ok x => exact ⟨k, .ok (x.1, .maxp spat thr v x.2), fun s hs => by simp only [h s hs]; rfl⟩
    | raise e => exact ⟨k, .raise e, fun s hs => by simp only [h s hs]; rfl⟩
    | timeout => exact ⟨k, .timeout, fun s hs => by simp only [h s hs]; rfl⟩

theorem strat_ops_reads {n q : Nat} {ρ : Type} (expf : ℚ → ℚ) {k : Nat} (idx : Fin k → Fin n)
    (attr : Fin k → ρ) (obj : Objective ρ) :
    (Strat.ops (q := q) expf idx attr obj).Reads :=
  strat_call_reads expf idx attr obj

/-! ### AZP -/

section azp
variable {σ : Type} {k : Nat} {ops : StratOps σ k} (ho : ops.Reads) (adj : Adj k)

/-- Put the tape into the state. -/
abbrev mkA (s : AzpState σ k) (r : Rng) : AzpState σ k := { s with rng := r }

omit ho in
theorem applyMove_reads (x : Int) (a : Fin k) (s : AzpState σ k) :
    Reads mkA fun r => applyMove adj x a { s with rng := r } := by
  unfold applyMove
  try dsimp only
  exact Reads.then_ _ fun n1 => Reads.then_ _ fun n2 => Reads.then_ _ fun n3 => Reads.then_ _ fun n4 =>
    Reads.pure (mk := mkA) { s with labels := makeMove a x s.labels, nbrs := n4 }

include ho

theorem tryCandidates_reads (x : Int) : ∀ (fuel : Nat) (cs : List (Fin k)) (s : AzpState σ k),
    Reads (fun (p : Bool × AzpState σ k) r => (p.1, mkA p.2 r))
      fun r => tryCandidates ops adj x fuel cs { s with rng := r }
  | fuel, [], s => by
    unfold tryCandidates
    try dsimp only
    exact Reads.pure (mk := fun (p : Bool × AzpState σ k) r => (p.1, mkA p.2 r)) (false, s)
  | 0, c :: cs, s => by
    unfold tryCandidates
    try dsimp only
    exact Reads.timeout
  | fuel + 1, c :: cs, s => by
    unfold tryCandidates
    try dsimp only
    refine Reads.bind (popRandomlyFrom_reads (c :: cs)) fun y => ?_
    try dsimp only [mk2]
    refine Reads.bind (ho s.strat y.1 x s.labels) fun z => ?_
    try dsimp only [mk2]
    refine Reads.ite (fun _ => ?_) fun _ => ?_
    · refine Reads.bind (applyMove_reads adj x y.1 { s with strat := z.2 }) fun s' => ?_
      exact Reads.pure (mk := fun (p : Bool × AzpState σ k) r => (p.1, mkA p.2 r)) (true, s')
    · exact tryCandidates_reads x fuel y.2 { s with strat := z.2 }

theorem growRegion_reads (x : Int) : ∀ (fuel : Nat) (s : AzpState σ k),
    Reads mkA fun r => growRegion ops adj x fuel { s with rng := r }
  | 0, s => by
    unfold growRegion
    try dsimp only
    exact Reads.timeout
  | fuel + 1, s => by
    unfold growRegion
    try dsimp only
    refine Reads.then_ _ fun border => ?_
    try dsimp only
    refine Reads.bind (tryCandidates_reads ho adj x _ _ s) fun y => ?_
    try dsimp only
    exact Reads.ite (fun _ => growRegion_reads x fuel y.2) fun _ => Reads.pure _

theorem passRegions_reads (fuel : Nat) : ∀ (m : Nat) (l : List Int) (s : AzpState σ k),
    Reads mkA fun r => passRegions ops adj fuel m l { s with rng := r }
  | m, [], s => by
    unfold passRegions
    try dsimp only
    exact Reads.pure (mk := mkA) s
  | 0, c :: cs, s => by
    unfold passRegions
    try dsimp only
    exact Reads.timeout
  | m + 1, c :: cs, s => by
    unfold passRegions
    try dsimp only
    refine Reads.bind (popRandomlyFrom_reads (c :: cs)) fun y => ?_
    try dsimp only [mk2]
    exact Reads.bind (growRegion_reads ho adj y.1 fuel s) fun s' => passRegions_reads fuel m y.2 s'

theorem azpOuter_reads (regions : List Int) (fuel : Nat) : ∀ (m : Nat) (start : Option ℚ) (stop : ℚ)
    (s : AzpState σ k), Reads mkA fun r => azpOuter ops adj regions fuel m start stop { s with rng := r }
  | 0, start, stop, s => by
    unfold azpOuter
    try dsimp only
    exact Reads.ite (fun _ => Reads.timeout) fun _ => Reads.pure (mk := mkA) s
  | m + 1, start, stop, s => by
    unfold azpOuter
    try dsimp only
    refine Reads.ite (fun _ => ?_) fun _ => Reads.pure (mk := mkA) s
    exact Reads.bind (passRegions_reads ho adj fuel _ regions s) fun s' =>
      azpOuter_reads regions fuel m (some stop) (ops.objVal s'.strat) s'

theorem azpComponent_reads (fuel : Nat) (init : Labels k) (st : σ) :
    Reads mk2 fun rng => azpComponent ops adj fuel init st rng := by
  unfold azpComponent
  try dsimp only
  try dsimp only
  refine Reads.ite (fun _ => Reads.pure (mk := mk2) (init, st)) fun _ =>
    Reads.ite (fun _ => Reads.raise _) fun _ => ?_
  refine Reads.bind (azpOuter_reads ho adj _ fuel fuel none _
    ⟨init, initNbrs adj init (uniqueSorted (arrayList init)), st, fun _ => 0⟩) fun s => ?_
  exact Reads.pure (mk := mk2) (s.labels, s.strat)

end azp

/-! ### The tabu searches -/

section tabu
variable {σ : Type} {k : Nat} {ρ : Type} {ops : StratOps σ k} (ho : ops.Reads) (obj : Objective ρ)
  (attr : Fin k → ρ) (adj : Adj k)

abbrev mkT (s : TabuState σ k) (r : Rng) : TabuState σ k := { s with rng := r }
abbrev mkT2 {α : Type} (s : α × TabuState σ k) (r : Rng) : α × TabuState σ k := (s.1, mkT s.2 r)

include ho

theorem tryMove_reads (m : Move k) (s : TabuState σ k) :
    Reads mkT2 fun r => tryMove ops adj m { s with rng := r } := by
  unfold tryMove
  try dsimp only
  refine Reads.bind (ho s.strat m.area m.new s.labels) fun y => ?_
  try dsimp only [mk2]
  refine Reads.ite (fun _ => ?_) fun _ => Reads.pure (mk := mkT2) (false, { s with strat := y.2 })
  exact Reads.then_ _ fun z => Reads.pure (mk := mkT2)
    (true, { s with strat := y.2, labels := z.2.1, tabu := z.2.2 })

theorem aspiration_reads (s : TabuState σ k) :
    Reads mkT fun r => aspiration ops obj attr adj { s with rng := r } := by
  unfold aspiration
  try dsimp only
  refine Reads.then_ _ fun moves => Reads.ite (fun _ => Reads.pure (mk := mkT) s) fun _ => ?_
  refine Reads.bind (randomElementFrom_reads moves) fun m => ?_
  try dsimp only [mk1]
  exact Reads.bind (tryMove_reads ho adj m s) fun y => Reads.pure (mk := mkT) y.2

theorem basicElse_reads (best : Option (Nat × Move k × ℚ)) (s : TabuState σ k) :
    Reads mkT2 fun r => basicElse ops obj attr adj best { s with rng := r } := by
  unfold basicElse
  try dsimp only
  refine Reads.bind (aspiration_reads ho obj attr adj s) fun s => ?_
  try dsimp only [mkT]
  refine Reads.ite (fun _ => Reads.pure (mk := mkT2) (true, s)) fun _ => ?_
  cases best with
  | none => exact Reads.pure (mk := mkT2) (false, s)
  | some b =>
    exact Reads.bind (tryMove_reads ho adj b.2.1 s) fun y => Reads.pure (mk := mkT2) (false, y.2)

theorem basicRound_reads (s : TabuState σ k) :
    Reads mkT2 fun r => basicRound ops obj attr adj { s with rng := r } := by
  unfold basicRound
  try dsimp only
  refine Reads.then_ _ fun best => ?_
  cases best with
  | none => exact basicElse_reads ho obj attr adj none s
  | some b =>
    refine Reads.ite (fun _ => ?_) fun _ => basicElse_reads ho obj attr adj (some b) s
    refine Reads.bind (tryMove_reads ho adj b.2.1 s) fun y => ?_
    try dsimp only [mkT2]
    exact Reads.ite (fun _ => Reads.pure (mk := mkT2) (false, y.2))
      fun _ => basicElse_reads ho obj attr adj (some b) y.2

theorem basicLoop_reads (reps : Int) : ∀ (fuel : Nat) (s : TabuState σ k),
    Reads mkT fun r => basicLoop ops obj attr adj reps fuel { s with rng := r }
  | 0, s => by
    unfold basicLoop
    try dsimp only
    exact Reads.timeout
  | fuel + 1, s => by
    unfold basicLoop
    try dsimp only
    refine Reads.bind (basicRound_reads ho obj attr adj (noteVisit reps s)) fun y => ?_
    try dsimp only [mkT2]
    exact Reads.ite (fun _ => Reads.pure (mk := mkT) y.2) fun _ => basicLoop_reads reps fuel y.2

theorem basicComponent_reads (len : Option Nat) (reps : Int) (fuel : Nat) (init : Labels k) (st : σ) :
    Reads mk2 fun rng => basicComponent ops obj attr adj len reps fuel init st rng := by
  unfold basicComponent
  try dsimp only
  refine Reads.ite (fun _ => Reads.pure (mk := mk2) (init, st)) fun _ => ?_
  exact Reads.bind (basicLoop_reads ho obj attr adj reps fuel ⟨init, ⟨[], len⟩, [], false, st, fun _ => 0⟩)
    fun s => Reads.pure (mk := mk2) (s.labels, s.strat)

theorem randomMoves_reads : ∀ (p : Nat) (moves : List (Move k)) (s : TabuState σ k),
    Reads mkT fun r => randomMoves ops adj p moves { s with rng := r }
  | 0, _, s => by
    unfold randomMoves
    try dsimp only
    exact Reads.pure (mk := mkT) s
  | p + 1, moves, s => by
    unfold randomMoves
    try dsimp only
    refine Reads.bind (popRandomlyFrom_reads moves) fun y => ?_
    try dsimp only [mk2]
    exact Reads.bind (tryMove_reads ho adj y.1 s) fun z => randomMoves_reads p y.2 z.2

theorem reactRound_reads (k1 k2 : Int) (avg : ℚ) (s : TabuState σ k) :
    Reads mkT2 fun r => reactRound ops obj attr adj k1 k2 avg { s with rng := r } := by
  unfold reactRound
  try dsimp only
  try dsimp only
  refine Reads.then_ _ fun best => ?_
  cases best with
  | none => exact Reads.raise _
  | some b =>
    refine Reads.bind (tryMove_reads ho adj b.2.1 s) fun y => ?_
    try dsimp only [mkT2, mkT]
    refine Reads.ite (fun _ => Reads.ite (fun _ => Reads.ite (fun _ => ?_) fun _ => Reads.raise _)
      fun _ => Reads.pure (mk := mkT2) (LastStep.ten, { y.2 with visited := y.2.visited ++ [arrayList y.2.labels] }))
      fun _ => Reads.pure (mk := mkT2) (LastStep.ten, { y.2 with visited := y.2.visited ++ [arrayList y.2.labels] })
    exact Reads.bind (randomMoves_reads ho adj _ _ { y.2 with visited := [] }) fun s' =>
      Reads.pure (mk := mkT2) (LastStep.eleven _, s')

theorem reactLoop_reads (k1 k2 : Int) (avg : ℚ) : ∀ (it : Nat) (start : Option ℚ)
    (last : Option LastStep) (s : TabuState σ k),
    Reads mkT2 fun r => reactLoop ops obj attr adj k1 k2 avg it start last { s with rng := r }
  | 0, start, last, s => by
    unfold reactLoop
    try dsimp only
    exact Reads.pure (mk := mkT2) (last, s)
  | it + 1, start, last, s => by
    unfold reactLoop
    try dsimp only
    try dsimp only
    refine Reads.ite (fun _ => ?_) fun _ => Reads.pure (mk := mkT2) (last, s)
    exact Reads.bind (reactRound_reads ho obj attr adj k1 k2 avg s) fun y =>
      reactLoop_reads k1 k2 avg it _ (some y.1) y.2

theorem reactComponentList_reads (maxIt : Nat) (k1 k2 : Int) (init : Labels k) (self : ReactObj σ) :
    Reads (fun (p : List Int × ReactObj σ) r => (p.1, { p.2 with rng := r }))
      fun r => reactComponentList ops obj attr adj maxIt k1 k2 init { self with rng := r } := by
  unfold reactComponentList
  try dsimp only
  refine Reads.ite (fun _ => Reads.pure (mk := fun (p : List Int × ReactObj σ) r =>
    (p.1, { p.2 with rng := r })) (_, self)) fun _ => ?_
  refine Reads.bind (reactLoop_reads ho obj attr adj k1 k2 self.avg maxIt none none
    ⟨init, ⟨[], some 1⟩, self.visited, false, self.strat, fun _ => 0⟩) fun y => ?_
  try dsimp only [mkT2, mkT]
  exact Reads.then_ _ fun out => Reads.pure (mk := fun (p : List Int × ReactObj σ) r =>
    (p.1, { p.2 with rng := r })) (out, { self with visited := _, strat := _ })

end tabu

/-! ### The fits -/

section fit
variable {σ : Type} {n : Nat} {ρ : Type} (adj : Adj n) (attr : Fin n → ρ)
  {comp : (idx : List (Fin n)) → Adj idx.length → Labels idx.length → (Fin idx.length → ρ) →
      σ → Rng → Res (Labels idx.length × σ × Rng)}
  (hc : ∀ idx a init at' st, Reads mk2 (comp idx a init at' st))
include hc

theorem fitStep_reads (y labels : Labels n) (st : σ) :
    Reads mk2 fun rng => fitStep adj attr comp y labels st rng := by
  unfold fitStep
  try dsimp only
  try dsimp only
  exact Reads.bind (hc _ _ _ _ _) fun x => Reads.pure (mk := mk2)
    (scatter (List.filter (fun i => decide (y i ≠ -1)) (List.finRange n)) x.1 labels, x.2)

theorem fitLoop_reads : ∀ (gen : Gen n) (_ : ∀ step ∈ gen, Reads mk1 step) (labels : Labels n)
    (st : σ), Reads mk2 fun rng => fitLoop adj attr comp gen labels st rng
  | [], _, labels, st => by
    unfold fitLoop
    try dsimp only
    exact Reads.pure (mk := mk2) (labels, st)
  | step :: steps, hs, labels, st => by
    unfold fitLoop
    try dsimp only
    refine Reads.bind (hs step (by simp)) fun y => ?_
    try dsimp only [mk1]
    cases y with
    | dict => exact Reads.raise _
    | array y =>
      exact Reads.bind (fitStep_reads adj attr hc y labels st) fun z =>
        fitLoop_reads steps (fun s h => hs s (by simp [h])) z.1 z.2

theorem fitWith_reads (o : MstOrder) (p : Int) (initial : Option (Labels n)) (st : σ) :
    Reads mk2 fun rng => fitWith o adj attr comp p initial st rng := by
  cases initial with
  | some init =>
    unfold fitWith
    try dsimp only
    refine Reads.then_ _ fun _ => fitLoop_reads adj attr hc _ ?_ _ _
    intro step h
    obtain ⟨y, -, rfl⟩ := List.mem_map.1 h
    exact Reads.pure (mk := mk1) (Yielded.array y)
  | none =>
    unfold fitWith
    try dsimp only
    refine Reads.bind_of (generateInitialSol_reads o adj p) (fun gen => ∀ step ∈ gen, Reads mk1 step)
      (fun r gen r' h => ⟨gen, generateInitialSol_steps h, fun _ => rfl⟩) fun gen hgen => ?_
    exact fitLoop_reads adj attr hc gen hgen _ _

end fit

section fits
variable {n q : Nat} {ρ : Type} (o : MstOrder) (expf : ℚ → ℚ) (obj : Objective ρ)
  (adj : Adj n) (attr : Fin n → ρ) (p : Int) (initial : Option (Labels n))

theorem azpFit_reads (fuel : Nat) (st : Strat n q) :
    Reads mk2 fun rng => azpFit o expf obj fuel adj attr p initial st rng :=
  fitWith_reads adj attr (fun _ a init _ _ =>
    azpComponent_reads (strat_ops_reads expf _ _ obj) a fuel init _) o p initial st

theorem basicTabuFit_reads (fuel : Nat) (len : Option Nat) (reps : Int) (st : Strat n q) :
    Reads mk2 fun rng => basicTabuFit o expf obj fuel len reps adj attr p initial st rng :=
  fitWith_reads adj attr (fun _ a init _ _ =>
    basicComponent_reads (strat_ops_reads expf _ _ obj) obj _ a len reps fuel init _) o p initial st

theorem reactiveTabuFit_reads (maxIt : Nat) (k1 k2 : Int) (self : ReactSelf (Strat n q)) :
    Reads mk2 fun rng => reactiveTabuFit o expf obj maxIt k1 k2 adj attr p initial self rng :=
  fitWith_reads adj attr (fun idx a init at' self => by
    refine Reads.bind (reactComponentList_reads (strat_ops_reads expf _ _ obj) obj _ a maxIt k1 k2 init
      ⟨self.visited, self.avg, self.repCounter, self.strat.start (obj.call init at'), fun _ => 0⟩)
      fun y => ?_
    try dsimp only
    exact Reads.then_ _ fun l => Reads.pure (mk := mk2) (l, ReactSelf.mk _ _ _ _)) o p initial self

end fits

abbrev mk3 {α β γ : Type} : α × β × γ → Rng → α × β × γ × Rng := fun a r => (a.1, a.2.1, a.2.2, r)

section sa
variable {n : Nat} {azp : Option (Labels n) → Strat n 0 → Rng → Res (Labels n × Strat n 0 × Rng)}
  (ha : ∀ cur st, Reads mk2 (azp cur st))
include ha

theorem saInner_reads (maxIt : Option Int) : ∀ (fuel it : Nat) (cur : Option (Labels n))
    (st : Strat n 0), Reads mk2 fun rng => saInner azp maxIt fuel it cur st rng
  | 0, it, cur, st => by
    unfold saInner
    try dsimp only
    exact Reads.ite (fun _ => Reads.timeout) fun _ => Reads.pure (mk := mk2) (cur, st)
  | fuel + 1, it, cur, st => by
    unfold saInner
    try dsimp only
    refine Reads.ite (fun _ => ?_) fun _ => Reads.pure (mk := mk2) (cur, st)
    refine Reads.bind (ha cur st) fun y => ?_
    try dsimp only [mk2]
    cases cur with
    | none => exact saInner_reads maxIt fuel (it + 1) (some y.1) y.2
    | some old =>
      exact Reads.ite (fun _ => Reads.pure (mk := mk2) (some y.1, y.2))
        fun _ => saInner_reads maxIt fuel (it + 1) (some y.1) y.2

theorem saOuter_reads (P : SaParams) (cooling : ℚ) (f : Nat) : ∀ (fuel : Nat) (t : ℚ) (nm : Nat)
    (cur : Option (Labels n)) (visited : List (List Int)) (st : Strat n 0),
    Reads mk3 fun rng => saOuter azp P cooling f fuel t nm cur visited st rng
  | 0, t, nm, cur, visited, st => by
    unfold saOuter
    try dsimp only
    exact Reads.ite (fun _ => Reads.timeout) fun _ => Reads.pure (mk := mk3) (cur, visited, st)
  | fuel + 1, t, nm, cur, visited, st => by
    unfold saOuter
    try dsimp only
    refine Reads.ite (fun _ => ?_) fun _ => Reads.pure (mk := mk3) (cur, visited, st)
    refine Reads.bind (saInner_reads ha P.maxIt f 0 cur st.saReset) fun y => ?_
    try dsimp only [mk2]
    obtain ⟨_ | L, st'⟩ := y
    · exact Reads.raise _
    · dsimp only
      refine Reads.ite (fun _ => Reads.pure (mk := mk3) (some L, visited, st')) fun _ =>
        Reads.ite (fun _ => saOuter_reads P cooling f fuel _ _ _ _ _)
          fun _ => saOuter_reads P cooling f fuel _ _ _ _ _

end sa

theorem saFit_reads {n : Nat} {ρ : Type} (o : MstOrder) (expf : ℚ → ℚ) (obj : Objective ρ)
    (f1 f2 f3 : Nat) (P : SaParams) (self : SaObj) (adj : Adj n) (attr : Fin n → ρ) (p : Int)
    (initial : Option (Labels n)) (cooling : ℚ) :
    Reads mk3 fun rng => saFit o expf obj f1 f2 f3 P self adj attr p initial cooling rng := by
  unfold saFit
  try dsimp only
  refine Reads.ite (fun _ => Reads.raise _) fun _ => Reads.then_ _ fun st => ?_
  refine Reads.bind (saOuter_reads (fun cur st => azpFit_reads o expf obj adj attr p cur f3 st) P cooling
    f2 f1 _ 0 initial self.visited _) fun y => ?_
  exact Reads.pure (mk := mk3) (y.1, SaObj.mk y.2.1 y.2.2.saMoveMade, y.2.2)

/-! ### The max-p heuristic -/

section maxp
variable {n q : Nat} {ρ : Type} (metric : ρ → ρ → ℚ) (adj : Adj n) (attr : Fin n → ρ)
  (spat : Fin n → Fin q → ℚ) (thr : Fin q → ℚ)

theorem growInner_reads : ∀ (fuel : Nat) (region cands : List (Fin n)) (s : Fin q → ℚ)
    (un as : List (Fin n)),
    Reads mk1 fun rng => growInner metric adj attr spat thr fuel region cands s un as rng
  | 0, region, cands, s, un, as => by
    unfold growInner
    try dsimp only
    exact Reads.ite (fun _ => Reads.pure (mk := mk1) (Grown.mk true region un as)) fun _ => Reads.timeout
  | fuel + 1, region, cands, s, un, as => by
    unfold growInner
    try dsimp only
    refine Reads.ite (fun _ => Reads.pure (mk := mk1) (Grown.mk true region un as)) fun _ =>
      Reads.ite (fun _ => ?_) fun _ => ?_
    · exact Reads.then_ _ fun as => Reads.pure (mk := mk1) (Grown.mk false region un as)
    · refine Reads.bind (randomElementFrom_reads _) fun v => ?_
      try dsimp only [mk1]
      exact Reads.then_ _ fun un => growInner_reads fuel _ _ _ _ _

theorem growLoop_reads : ∀ (fuel : Nat) (P : List (List (Fin n))) (en un as : List (Fin n)),
    Reads mk1 fun rng => growLoop metric adj attr spat thr fuel P en un as rng
  | fuel, P, en, [], as => by
    unfold growLoop
    try dsimp only
    exact Reads.pure (mk := mk1) (P, en)
  | 0, P, en, x :: xs, as => by
    unfold growLoop
    try dsimp only
    exact Reads.timeout
  | fuel + 1, P, en, x :: xs, as => by
    unfold growLoop
    try dsimp only
    refine Reads.bind (popRandomlyFrom_reads (x :: xs)) fun y => ?_
    try dsimp only [mk2]
    refine Reads.ite (fun _ => growLoop_reads fuel _ _ _ _) fun _ => ?_
    refine Reads.bind (growInner_reads metric adj attr spat thr _ _ _ _ _ _) fun g => ?_
    try dsimp only [mk1]
    exact Reads.ite (fun _ => growLoop_reads fuel _ _ _ _) fun _ => growLoop_reads fuel _ _ _ _

theorem construct_reads : ∀ (it maxP : Nat) (kept : List (List (List (Fin n)) × List (Fin n))),
    Reads mk2 fun rng => construct metric adj attr spat thr it maxP kept rng
  | 0, maxP, kept => Reads.pure (mk := mk2) (maxP, kept)
  | it + 1, maxP, kept => by
    unfold construct
    try dsimp only
    refine Reads.bind (growLoop_reads metric adj attr spat thr n [] [] (List.finRange n) [])
      fun pe => ?_
    try dsimp only [mk1]
    exact Reads.ite (fun _ => construct_reads it _ _) fun _ =>
      Reads.ite (fun _ => construct_reads it _ _) fun _ => construct_reads it _ _

omit spat thr

theorem findBestRegionIdx_reads (a : Fin n) (P : List (List (Fin n))) (idxs : List Nat) :
    Reads mk1 fun rng => findBestRegionIdx metric attr a P idxs rng := by
  unfold findBestRegionIdx
  try dsimp only
  try dsimp only
  cases (List.map (fun i => dissimTo metric attr a (P.getD i [])) idxs.eraseDups).min? with
  | none => exact Reads.raise _
  | some m => exact randomElementFrom_reads _

theorem assignLoop_reads : ∀ (fuel : Nat) (P : List (List (Fin n))) (en : List (Fin n)),
    Reads mk1 fun rng => assignLoop metric adj attr fuel P en rng
  | fuel, P, [] => by
    unfold assignLoop
    try dsimp only
    exact Reads.pure (mk := mk1) P
  | 0, P, e :: es => by
    unfold assignLoop
    try dsimp only
    exact Reads.timeout
  | fuel + 1, P, e :: es => by
    unfold assignLoop
    try dsimp only
    try dsimp only
    refine Reads.bind (popRandomlyFrom_reads _) fun y => ?_
    try dsimp only [mk2]
    refine Reads.then_ _ fun idxs => ?_
    refine Reads.bind (findBestRegionIdx_reads metric attr y.1 P idxs) fun i => ?_
    try dsimp only [mk1]
    exact Reads.then_ _ fun P => Reads.then_ _ fun en => assignLoop_reads fuel P en

theorem assignAll_reads : ∀ (kept : List (List (List (Fin n)) × List (Fin n))),
    Reads mk1 fun rng => assignAll metric adj attr kept rng
  | [] => Reads.pure (mk := mk1) []
  | pe :: rest => by
    unfold assignAll
    try dsimp only
    refine Reads.bind (assignLoop_reads metric adj attr _ pe.1 pe.2) fun P => ?_
    try dsimp only [mk1]
    exact Reads.bind (assignAll_reads rest) fun Ps => Reads.pure (mk := mk1) (P :: Ps)

end maxp

section search
variable {ς : Type} {n q : Nat} {ρ : Type} {ls : LocalSearch ς n q} (obj : Objective ρ)
  (attr : Fin n → ρ) (hl : ∀ p init st, Reads mk2 (ls.fit p init st))
include hl

theorem searchInner_reads (maxP : Nat) : ∀ (ps : List (List (List (Fin n))))
    (best : Option (Labels n × ℚ)) (st : ς),
    Reads mk2 fun rng => searchInner ls obj attr maxP ps best st rng
  | [], best, st => Reads.pure (mk := mk2) (best, st)
  | p :: ps, best, st => by
    unfold searchInner
    try dsimp only
    refine Reads.then_ _ fun init => ?_
    refine Reads.bind (hl maxP init st) fun y => ?_
    try dsimp only [mk2]
    obtain ⟨_ | L, st'⟩ := y
    · exact Reads.raise _
    · exact searchInner_reads maxP ps _ st'

theorem searchOuter_reads (maxP : Nat) (spat : Fin n → Fin q → ℚ) (thr : Fin q → ℚ)
    (feasible : List (List (List (Fin n)))) : ∀ (rounds : List (List (List (Fin n))))
    (best : Option (Labels n × ℚ)) (st : ς),
    Reads mk2 fun rng => searchOuter ls obj attr maxP spat thr feasible rounds best st rng
  | [], best, st => Reads.pure (mk := mk2) (best, st)
  | _ :: rounds, best, st => by
    unfold searchOuter
    try dsimp only
    exact Reads.bind (searchInner_reads obj attr hl maxP feasible best _) fun y =>
      searchOuter_reads maxP spat thr feasible rounds y.1 y.2

theorem maxpFit_reads (metric : ρ → ρ → ℚ) (adj : Adj n) (spat : Fin n → Fin q → ℚ) (thr : Fin q → ℚ)
    (maxIt : Nat) (st : ς) :
    Reads mk3 fun rng => maxpFit ls metric obj adj attr spat thr maxIt st rng := by
  unfold maxpFit
  try dsimp only
  refine Reads.bind (construct_reads metric adj attr spat thr maxIt 0 []) fun x => ?_
  try dsimp only [mk2]
  refine Reads.bind (assignAll_reads metric adj attr x.2) fun feasible => ?_
  try dsimp only [mk1]
  refine Reads.bind (searchOuter_reads obj attr hl x.1 spat thr feasible feasible none st) fun y => ?_
  exact Reads.pure (mk := mk3) (_, y.1.map Prod.fst, y.2)

end search

end Region
