import Verif.Lemmas.AzpSa
/-
Property theorems C29-C32: simulated annealing.
-/
namespace Region.Props

open Region Spec Relation

/-- The labels a run from `initial` can use. -/
def saLabels {n : Nat} (p : Int) : Option (Labels n) → Finset Int
  | some init => Finset.univ.image init
  | none => Finset.Ico 0 p

theorem saLabels_next {n : Nat} {adj : Adj n} {p : Int} {F : Finset Int}
    {cur : Option (Labels n)} (hF : ∀ L, cur = some L → ∀ v, L v ∈ F)
    (hF0 : cur = none → F = Finset.Ico 0 p) {lab L : Labels n} (h1 : StartsFrom adj p cur lab)
    (h2 : FitOk adj lab L) : ∀ v, L v ∈ F := by
  intro v
  obtain ⟨u, hu⟩ := (h2.image (L v)).1 ⟨v, rfl⟩
  rw [← hu]
  cases cur with
  | some init => obtain ⟨_, _, rfl⟩ := h1; exact hF _ rfl u
  | none => rw [hF0 rfl, Finset.mem_Ico]; exact h1.2.2 u

/-- The labellings over a set of labels, as tuples. -/
def tuplesOver (n : Nat) (F : Finset Int) : Finset (List Int) :=
  (Fintype.piFinset fun _ : Fin n => F).image arrayList

theorem mem_tuplesOver {n : Nat} {F : Finset Int} {L : Labels n} (h : ∀ v, L v ∈ F) :
    arrayList L ∈ tuplesOver n F :=
  Finset.mem_image.2 ⟨L, Fintype.mem_piFinset.2 h, rfl⟩

theorem card_tuplesOver (n : Nat) (F : Finset Int) : (tuplesOver n F).card ≤ F.card ^ n := by
  unfold tuplesOver
  exact Finset.card_image_le.trans (by simp [Fintype.card_piFinset])

theorem card_saLabels {n : Nat} {adj : Adj n} {p : Nat} {initial : Option (Labels n)}
    (h : ∀ L, initial = some L → Feasible adj L p) : (saLabels (p : Int) initial).card = p := by
  cases initial with
  | some init => exact (h init rfl).2
  | none => simp [saLabels]

/-! ### C29 -/

/-- C29: whenever `fit` returns, `labels_` is a clustering into exactly `n_regions` contiguous regions
(it is `None` only if no initial labels were given and `nonmoving_steps_before_stop ≤ 0`): for every
undirected graph, every objective, all parameters, every earlier use of the object, all random draws
and any number of rounds. -/
theorem c29_feasible {n : Nat} {ρ : Type} (o : MstOrder) (expf : ℚ → ℚ) (obj : Objective ρ)
    (f1 f2 f3 : Nat) (P : SaParams) (self : SaObj) {adj : Adj n} (hs : Symmetric adj)
    (attr : Fin n → ρ) (p : Nat) (initial : Option (Labels n))
    (hinit : ∀ L, initial = some L → Feasible adj L p) (cooling : ℚ) (rng : Rng)
    {res : Option (Labels n)} {self' : SaObj} {st' : Strat n 0} {rng' : Rng}
    (h : saFit o expf obj f1 f2 f3 P self adj attr p initial cooling rng =
      .ok (res, self', st', rng')) :
    (initial.isSome ∨ 0 < P.nonmovingSteps → res.isSome) ∧
      ∀ L, res = some L → Feasible adj L p := by
  unfold saFit at h
  split_ifs at h with hc
  rw [Res.bind_eq_ok] at h
  obtain ⟨st, hst, h⟩ := h
  unfold newSaStrategy at hst
  split at hst
  · rename_i i _
    split_ifs at hst with hi
    cases hst
    rw [Res.bind_eq_ok] at h
    obtain ⟨⟨L, vis, st2, rng2⟩, h1, h2⟩ := h
    cases h2
    have := saOuter_post (R := True) (T := True) (n := n)
      (azp := fun cur st rng => azpFit o expf obj f3 adj attr p cur st rng)
      (K := fun cur => (∀ L, cur = some L → Feasible adj L p ∧
        ∀ v, L v ∈ saLabels (p : Int) initial) ∧
        (cur = none → saLabels (p : Int) initial = Finset.Ico 0 (p : Int)))
      (term := i.toNat) (by omega) P cooling f2 (tuplesOver n (saLabels (p : Int) initial))
      (fun L hL => mem_tuplesOver (hL.1 L rfl).2)
      (by
        intro t cur st rng hk hsa
        apply (azpFit_partial o expf obj hs attr f3 p cur (IsSa t i.toNat)
          (fun st v h => isSa_start h v)
          (fun st h k idx attr a r labels rng => isSa_call h expf idx attr obj a r labels rng)
          st hsa rng).mono id id
        rintro ⟨L, st', rng'⟩ ⟨h1, lab, h2, h3⟩
        have h2' : numRegions lab = p := by exact_mod_cast h2.2.1
        refine ⟨⟨?_, fun h => by cases h⟩, h1⟩
        intro L' hL'
        cases hL'
        exact ⟨⟨h3.contiguous, by rw [FitOk.numRegions_eq h3, h2']⟩,
          saLabels_next (fun L hL => (hk.1 L hL).2) hk.2 h2 h3⟩)
      (fun h => absurd trivial h) f1 P.initTemperature 0 initial self.visited
      ((Strat.sa P.initTemperature i.toNat 0 0 false false).saSetMoveMade self.moveMade) rng
      ⟨fun L hL => ⟨hinit L hL, fun v => by subst hL; simp [saLabels]⟩,
        fun h => by subst h; rfl⟩
      (isSa_setMoveMade ⟨0, 0, false, false, rfl, by simp; omega⟩ _)
      (fun h => absurd trivial h) (fun h => absurd trivial h)
    obtain ⟨hK, hsome, _⟩ := this.ok h1
    exact ⟨fun h => hsome (by simpa using h), fun L hL => (hK.1 L hL).1⟩
  · cases hst

/-! ### C30, C32 -/

/-- C30 and C32: with a finite `max_iterations`, from a good start, `fit` returns whatever the random
draws: the outer loop runs at most `p^n * repetitions_before_termination + 1` times (that much fuel is
enough).  The number of completed rounds is the number of labellings added to `visited`, and after
`k` of them the temperature is `init_temperature * cooling_factor^k`. -/
theorem c30_terminates {n : Nat} {ρ : Type} (o : MstOrder) (expf : ℚ → ℚ) {obj : Objective ρ}
    (he : obj.Exact) (ht : obj.Total) (f1 f2 f3 : Nat) (P : SaParams) (self : SaObj) {adj : Adj n}
    (hs : Symmetric adj) (attr : Fin n → ρ) (p : Nat) (initial : Option (Labels n))
    (hstart : GoodStart adj p initial) (cooling : ℚ) (hc0 : 0 < cooling) (hc1 : cooling < 1)
    (term : Nat) (hterm : 0 < term) (hPt : P.saMovesTerm = .int term) (M : Nat)
    (hM : P.maxIt = some (M : Int)) (hM1 : initial.isSome ∨ 0 < M)
    (hf1 : p ^ n * P.repsBeforeTermination.toNat < f1) (hf2 : M ≤ f2) (hf3 : n + n ^ n < f3)
    (rng : Rng) :
    ∃ res self' st' rng' rounds,
      saFit o expf obj f1 f2 f3 P self adj attr p initial cooling rng =
        .ok (res, self', st', rng') ∧
      self'.visited = self.visited ++ rounds ∧
      st'.saTemperature = P.initTemperature * cooling ^ rounds.length := by
  unfold saFit
  rw [if_neg (not_not.2 ⟨hc0, hc1⟩)]
  have hst : newSaStrategy (n := n) (q := 0) P.initTemperature P.saMovesTerm =
      .ok (.sa P.initTemperature term 0 0 false false) := by
    rw [hPt]
    unfold newSaStrategy
    dsimp only
    rw [if_neg (by omega)]
    rfl
  rw [hst, Res.bind_ok]
  have hfeas : ∀ L, initial = some L → Feasible adj L p := by
    intro L hL
    subst hL
    exact ⟨hstart.1, by exact_mod_cast hstart.2.1⟩
  have := saOuter_post (R := False) (T := False) (n := n)
    (azp := fun cur st rng => azpFit o expf obj f3 adj attr p cur st rng)
    (K := fun cur => GoodStart adj p cur ∧ (∀ L, cur = some L →
      ∀ v, L v ∈ saLabels (p : Int) initial) ∧
      (cur = none → saLabels (p : Int) initial = Finset.Ico 0 (p : Int)))
    (term := term) hterm P cooling f2 (tuplesOver n (saLabels (p : Int) initial))
    (fun L hL => mem_tuplesOver (hL.2.1 L rfl))
    (by
      intro t cur st rng hk hsa
      obtain ⟨out, hout⟩ := azpFit_total o expf he ht attr p cur hk.1 f3 hf3 st rng
      have := azpFit_partial o expf obj hs attr f3 p cur (IsSa t term)
        (fun st v h => isSa_start h v)
        (fun st h k idx attr a r labels rng => isSa_call h expf idx attr obj a r labels rng)
        st hsa rng
      obtain ⟨h1, lab, h2, h3⟩ := this.ok hout
      exact .of_ok hout ⟨⟨goodStart_next hk.1 h2 h3, fun L hL => by
        cases hL; exact saLabels_next hk.2.1 hk.2.2 h2 h3, fun h => by cases h⟩, h1⟩)
    (fun _ => ⟨M, hM, by exact_mod_cast hf2⟩) f1 P.initTemperature 0 initial self.visited
    ((Strat.sa P.initTemperature term 0 0 false false).saSetMoveMade self.moveMade) rng
    ⟨hstart, fun L hL v => by subst hL; simp [saLabels], fun h => by subst h; rfl⟩
    (isSa_setMoveMade ⟨0, 0, false, false, rfl, by simp; omega⟩ _)
    (fun _ => hM1.imp id fun h => by rw [hM]; simp [belowMax, h])
    (fun _ => lt_of_le_of_lt (roomLeft_le _ _ _) (lt_of_le_of_lt
      (Nat.mul_le_mul_right _ ((card_tuplesOver _ _).trans (by rw [card_saLabels hfeas]))) hf1))
  obtain ⟨⟨L, vis, st', rng'⟩, h1, hK, _, new, h2, h3, _⟩ := this.total
  rw [h1, Res.bind_ok]
  refine ⟨_, _, _, _, new, rfl, h2, ?_⟩
  obtain ⟨m, v, al, mm, h4, _⟩ := h3
  dsimp only at h4 ⊢
  rw [h4]; rfl

/-- C32: after any run that returns, the temperature is `init_temperature * cooling_factor^k` where `k`
is the number of completed rounds (labellings added to `visited`), without any assumption on the
objective, the start or the parameters. -/
theorem c32_temperature {n : Nat} {ρ : Type} (o : MstOrder) (expf : ℚ → ℚ) (obj : Objective ρ)
    (f1 f2 f3 : Nat) (P : SaParams) (self : SaObj) {adj : Adj n} (hs : Symmetric adj)
    (attr : Fin n → ρ) (p : Nat) (initial : Option (Labels n))
    (cooling : ℚ) (rng : Rng)
    {res : Option (Labels n)} {self' : SaObj} {st' : Strat n 0} {rng' : Rng}
    (h : saFit o expf obj f1 f2 f3 P self adj attr p initial cooling rng =
      .ok (res, self', st', rng')) :
    ∃ rounds, self'.visited = self.visited ++ rounds ∧
      st'.saTemperature = P.initTemperature * cooling ^ rounds.length ∧
      0 < cooling ∧ cooling < 1 := by
  unfold saFit at h
  split_ifs at h with hc
  rw [Res.bind_eq_ok] at h
  obtain ⟨st, hst, h⟩ := h
  unfold newSaStrategy at hst
  split at hst
  · rename_i i _
    split_ifs at hst with hi
    cases hst
    rw [Res.bind_eq_ok] at h
    obtain ⟨⟨L, vis, st2, rng2⟩, h1, h2⟩ := h
    cases h2
    have := saOuter_post (R := True) (T := True) (n := n)
      (azp := fun cur st rng => azpFit o expf obj f3 adj attr p cur st rng)
      (K := fun cur => (∀ L, cur = some L → ∀ v, L v ∈ saLabels (p : Int) initial) ∧
        (cur = none → saLabels (p : Int) initial = Finset.Ico 0 (p : Int)))
      (term := i.toNat) (by omega) P cooling f2 (tuplesOver n (saLabels (p : Int) initial))
      (fun L hL => mem_tuplesOver (hL.1 L rfl))
      (by
        intro t cur st rng hk hsa
        apply (azpFit_partial o expf obj hs attr f3 p cur (IsSa t i.toNat)
          (fun st v h => isSa_start h v)
          (fun st h k idx attr a r labels rng => isSa_call h expf idx attr obj a r labels rng)
          st hsa rng).mono id id
        rintro ⟨L, st', rng'⟩ ⟨h1, lab, h2, h3⟩
        refine ⟨⟨?_, fun h => by cases h⟩, h1⟩
        intro L' hL'
        cases hL'
        exact saLabels_next hk.1 hk.2 h2 h3)
      (fun h => absurd trivial h) f1 P.initTemperature 0 initial self.visited
      ((Strat.sa P.initTemperature i.toNat 0 0 false false).saSetMoveMade self.moveMade) rng
      ⟨fun L hL v => by subst hL; simp [saLabels], fun h => by subst h; rfl⟩
      (isSa_setMoveMade ⟨0, 0, false, false, rfl, by simp; omega⟩ _)
      (fun h => absurd trivial h) (fun h => absurd trivial h)
    obtain ⟨_, _, new, h3, ⟨m, v, al, mm, h4, _⟩, _⟩ := this.ok h1
    refine ⟨new, h3, ?_, hc⟩
    dsimp only at h4
    rw [h4]; rfl
  · cases hst

/-- C32: a cooling factor outside (0, 1) raises `ValueError`, before anything else happens. -/
theorem c32_cooling_validated {n : Nat} {ρ : Type} (o : MstOrder) (expf : ℚ → ℚ) (obj : Objective ρ)
    (f1 f2 f3 : Nat) (P : SaParams) (self : SaObj) (adj : Adj n) (attr : Fin n → ρ) (p : Int)
    (initial : Option (Labels n)) (cooling : ℚ) (rng : Rng) (h : cooling ≤ 0 ∨ 1 ≤ cooling) :
    ∃ m, saFit o expf obj f1 f2 f3 P self adj attr p initial cooling rng =
      .raise (.valueError m) := by
  unfold saFit
  rw [if_pos (by rintro ⟨h1, h2⟩; rcases h with h | h <;> linarith)]
  exact ⟨_, rfl⟩

/-- Parameters of the documentation's defaults with a finite iteration limit. -/
def saDemo : SaParams := ⟨1, some 2, .int 10, 3, 5⟩

/-- A run in which annealing changes the clustering; `math.exp` is replaced by 0 here (no uphill
moves). -/
example : (match saFit .rowMajor (fun _ => 0) (pairwise manhattan) 20 5 30 saDemo .fresh path4
      (ramp 4) 2 (some ![0, 1, 1, 1]) (1/2) fun _ => 0 with
    | .ok (some L, s, st, _) => (arrayList L, s.visited.length, st.saTemperature)
    | _ => ([], 0, 0)) = ([0, 0, 1, 1], 4, 1/16) := by decide +kernel

example : GoodStart path4 (2 : Nat) (some ![0, 1, 1, 1]) := by
  refine ⟨((c04_assert_feasible_ok ![0, 1, 1, 1] path4 none).1 (by decide +kernel)).1,
    by decide +kernel, ?_⟩
  intro v
  exact ⟨v, .refl, by revert v; decide⟩

/-! ### C31 -/

/-- What happens to an SA strategy: a call about a move or a `reset` at the start of a round. -/
inductive SaEvent (ρ : Type)
  | call (k : Nat) (attr : Fin k → ρ) (a : Fin k) (region : Int) (labels : Labels k)
  | reset

/-- The strategy's reaction to a sequence of events; with each call the answer is recorded together
with the difference of the objective. Stops at the first exception. -/
def saHistory {n : Nat} {ρ : Type} (expf : ℚ → ℚ) (obj : Objective ρ)
    (idx : (k : Nat) → Fin k → Fin n) :
    List (SaEvent ρ) → Strat n 0 → Rng → Res (List (Option (ℚ × Bool)) × Strat n 0 × Rng)
  | [], st, rng => .ok ([], st, rng)
  | .reset :: es, st, rng => do
    let (log, st, rng) ← saHistory expf obj idx es st.saReset rng
    .ok (none :: log, st, rng)
  | .call k attr a region labels :: es, st, rng => do
    let (b, st, rng) ← st.call expf (idx k) attr obj a region labels rng
    let (log, st, rng) ← saHistory expf obj idx es st rng
    .ok (some ((obj.update a region labels attr).getD 0, b) :: log, st, rng)

/-- The number of accepted worsening moves since the last reset, given the number before. -/
def saAccepted : Nat → List (Option (ℚ × Bool)) → Nat
  | m, [] => m
  | _, none :: log => saAccepted 0 log
  | m, some (d, b) :: log => saAccepted (if 0 < d ∧ b = true then m + 1 else m) log

/-- C31: for every sequence of calls and resets and all random draws, the alert flag is set exactly
when at least `sa_moves_term` worsening moves have been accepted since the last reset, and the counter
is the number of these moves; moves that do not worsen the objective are always accepted. -/
theorem c31_history {n : Nat} {ρ : Type} (expf : ℚ → ℚ) (obj : Objective ρ)
    (idx : (k : Nat) → Fin k → Fin n) (term : Nat) (hterm : 0 < term) (t : ℚ) :
    ∀ (es : List (SaEvent ρ)) (m : Nat) (v : ℚ) (al mm : Bool) (rng : Rng),
      (al = true ↔ term ≤ m) →
      ∀ log st' rng', saHistory expf obj idx es (.sa t term m v al mm) rng = .ok (log, st', rng') →
      (∃ v' al' mm', st' = .sa t term (saAccepted m log) v' al' mm' ∧
        (al' = true ↔ term ≤ saAccepted m log)) ∧
      (∀ d b, some (d, b) ∈ log → d ≤ 0 → b = true) := by
  intro es
  induction es with
  | nil =>
    intro m v al mm rng hal log st' rng' h
    cases h
    exact ⟨⟨v, al, mm, rfl, hal⟩, by simp⟩
  | cons e es ih =>
    intro m v al mm rng hal log st' rng' h
    cases e with
    | reset =>
      unfold saHistory at h
      rw [Res.bind_eq_ok] at h
      obtain ⟨⟨log1, st1, rng1⟩, h1, h2⟩ := h
      cases h2
      have := ih 0 v false mm rng (by simp; omega) _ _ _ h1
      refine ⟨this.1, ?_⟩
      intro d b hm
      rcases List.mem_cons.1 hm with he | hm
      · cases he
      · exact this.2 d b hm
    | call k attr a region labels =>
      unfold saHistory at h
      rw [Res.bind_eq_ok] at h
      obtain ⟨⟨b, st1, rng1⟩, h1, h2⟩ := h
      dsimp only at h2
      rw [Res.bind_eq_ok] at h2
      obtain ⟨⟨log1, st2, rng2⟩, h2, h3⟩ := h2
      cases h3
      unfold Strat.call at h1
      split at h1
      · cases h1
      · rename_i d hd
        rw [hd]
        simp only [Option.getD_some]
        split_ifs at h1 with hle
        · cases h1
          have := ih m (v + d) al true _ hal _ _ _ h2
          rw [show saAccepted m (some (d, true) :: log1) = saAccepted m log1 from by
            simp [saAccepted, not_lt.2 hle]]
          refine ⟨this.1, ?_⟩
          intro d' b' hm hd'
          rcases List.mem_cons.1 hm with he | hm
          · cases he; rfl
          · exact this.2 _ _ hm hd'
        · have hpos : 0 < d := lt_of_not_ge hle
          split at h1
          · cases h1
            have := ih (m + 1) (v + d) (al || decide (m + 1 ≥ term)) true _ (by
              simp only [Bool.or_eq_true, decide_eq_true_eq, hal]; omega) _ _ _ h2
            rw [show saAccepted m (some (d, true) :: log1) = saAccepted (m + 1) log1 from by
              simp [saAccepted, hpos]]
            refine ⟨this.1, ?_⟩
            intro d' b' hm hd'
            rcases List.mem_cons.1 hm with he | hm
            · cases he; rfl
            · exact this.2 _ _ hm hd'
          · cases h1
            have := ih m v al mm _ hal _ _ _ h2
            rw [show saAccepted m (some (d, false) :: log1) = saAccepted m log1 from by
              simp [saAccepted]]
            refine ⟨this.1, ?_⟩
            intro d' b' hm hd'
            rcases List.mem_cons.1 hm with he | hm
            · cases he; exact absurd hd' hle
            · exact this.2 _ _ hm hd'

/-- C31: a worsening move is accepted exactly when the drawn number in [0, 1) is below
`exp(-diff / t)`; one number is drawn. -/
theorem c31_worsening {n k : Nat} {ρ : Type} (expf : ℚ → ℚ) (idx : Fin k → Fin n)
    (attr : Fin k → ρ) (obj : Objective ρ) (t : ℚ) (ht : t ≠ 0) (term m : Nat) (v : ℚ)
    (al mm : Bool) (a : Fin k) (region : Int) (labels : Labels k) (rng : Rng) {d : ℚ}
    (hd : obj.update a region labels attr = some d) (hpos : 0 < d) :
    ∃ b st', (Strat.sa (q := 0) t term m v al mm).call expf idx attr obj a region labels rng =
        .ok (b, st', rng.next) ∧
      (b = true ↔ ((rng 0 % 2 ^ 53 : Nat) : ℚ) / 2 ^ 53 < expf (-d / t)) ∧
      (b = false → st' = .sa t term m v al mm) := by
  unfold Strat.call Strat.randomLt Strat.acceptProb
  rw [hd]
  dsimp only
  rw [if_neg (not_le.2 hpos)]
  simp only [if_neg ht]
  by_cases hlt : ((rng 0 % 2 ^ 53 : Nat) : ℚ) / 2 ^ 53 < expf (-d / t)
  · rw [decide_eq_true hlt]
    exact ⟨_, _, rfl, ⟨fun _ => hlt, fun _ => rfl⟩, fun h => by cases h⟩
  · rw [decide_eq_false hlt]
    exact ⟨_, _, rfl, ⟨fun h => (by cases h), fun h => absurd h hlt⟩, fun _ => rfl⟩

/-- C31: at temperature 0 (reached only if it was passed as `init_temperature`) no worsening move is
accepted; one number is drawn all the same. -/
theorem c31_frozen {n k : Nat} {ρ : Type} (expf : ℚ → ℚ) (idx : Fin k → Fin n)
    (attr : Fin k → ρ) (obj : Objective ρ) (term m : Nat) (v : ℚ) (al mm : Bool) (a : Fin k)
    (region : Int) (labels : Labels k) (rng : Rng) {d : ℚ}
    (hd : obj.update a region labels attr = some d) (hpos : 0 < d) :
    (Strat.sa (q := 0) 0 term m v al mm).call expf idx attr obj a region labels rng =
      .ok (false, .sa 0 term m v al mm, rng.next) := by
  unfold Strat.call Strat.randomLt Strat.acceptProb
  rw [hd]
  dsimp only
  rw [if_neg (not_le.2 hpos), if_pos rfl]
  have : ¬ (((rng 0 % 2 ^ 53 : Nat) : ℚ) / 2 ^ 53 < 0) := not_lt.2
    (div_nonneg (Nat.cast_nonneg _) (by norm_num))
  rw [decide_eq_false this]

/-- C31: a move for which the objective has no value (with the library's objectives: into a region
without areas, or out of a region left empty) is answered by scikit-learn's `ValueError`, without
drawing a number. -/
theorem c31_undefined {n q k : Nat} {ρ : Type} (expf : ℚ → ℚ) (idx : Fin k → Fin n)
    (attr : Fin k → ρ) (obj : Objective ρ) (t : ℚ) (term m : Nat) (v : ℚ) (al mm : Bool) (a : Fin k)
    (region : Int) (labels : Labels k) (rng : Rng) (hd : obj.update a region labels attr = none) :
    (Strat.azp v : Strat n q).call expf idx attr obj a region labels rng =
      .raise (.valueError "Found array with 0 sample(s)") ∧
    (Strat.sa t term m v al mm : Strat n q).call expf idx attr obj a region labels rng =
      .raise (.valueError "Found array with 0 sample(s)") := by
  unfold Strat.call
  rw [hd]
  exact ⟨rfl, rfl⟩

example : (pairwise manhattan).update 1 7 ![0, 0, 1, 1] (ramp 4) = none := by decide +kernel

/-- C31: the constructor accepts exactly the positive integers as `sa_moves_term`; in particular its
own default `float("inf")` is rejected. -/
theorem c31_constructor {n q : Nat} (t : ℚ) (term : PyNum) :
    (∃ st : Strat n q, newSaStrategy t term = .ok st) ↔ ∃ i : Int, term = .int i ∧ 0 < i := by
  unfold newSaStrategy
  cases term with
  | int i =>
    dsimp only
    split_ifs with h
    · simp; omega
    · simp; omega
  | nonIntegral => simp

example : (match saHistory (n := 4) (fun _ => 1) (pairwise manhattan) (fun _ _ => 0)
      [.call 4 (ramp 4) 1 1 ![0, 0, 1, 1], .reset, .call 4 (ramp 4) 1 1 ![0, 0, 1, 1]]
      (.sa 1 1 0 1 false false) fun _ => 0 with
    | .ok (log, st, _) => (log, st.saAlert)
    | _ => ([], false)) = ([some (2, true), none, some (2, true)], true) := by decide +kernel

end Region.Props
