import Verif.Lemmas.Anneal
/-
Simulated annealing with all its possible results: `fit` on a connected map.
-/
namespace Region

open Spec Props Res

/-- The routine for a component which is the whole map. -/
theorem azpComponent_all {n q : Nat} {ρ : Type} (expf : ℚ → ℚ) (obj : Objective ρ) (fuel : Nat) (adj : Adj n)
    (init : Labels n) (attr : Fin n → ρ) (st : Strat n q) (rng : Rng) : ∀ (k : Nat) (_ : k = n)
    (f : Fin k → Fin n) (_ : ∀ i, (f i).val = i.val) (sc : Labels k → Labels n)
    (_ : ∀ out i, sc out (f i) = out i),
    (azpComponent (Strat.ops expf f (fun i => attr (f i)) obj) (fun i j => adj (f i) (f j)) fuel
      (fun i => init (f i)) (st.start (obj.call (fun i => init (f i)) fun i => attr (f i))) rng >>=
        fun out => (.ok (sc out.1, out.2.1, out.2.2) : Res (Labels n × Strat n q × Rng))) =
    azpComponent (Strat.ops expf id attr obj) adj fuel init (st.start (obj.call init attr)) rng := by
  rintro k rfl f hf sc hsc
  have : f = id := by funext i; exact Fin.ext (hf i)
  subst this
  have hid : ∀ out, sc out = out := fun out => by funext i; exact hsc out i
  simp only [hid, id]
  cases azpComponent _ adj fuel init _ rng <;> rfl

/-- `AZP.fit` on a connected map. -/
theorem azpFit_connected {n q : Nat} {ρ : Type} (o : MstOrder) (expf : ℚ → ℚ) (obj : Objective ρ) (fuel : Nat)
    {adj : Adj n} (hcon : Connected adj) (attr : Fin n → ρ) {p : Int} {init : Labels n}
    (hc : AllContiguous adj init) (hp : (numRegions init : Int) = p) (hfree : ∀ v, init v ≠ -1)
    (st : Strat n q) (rng : Rng) :
    azpFit o expf obj fuel adj attr p (some init) st rng =
      azpComponent (Strat.ops expf id attr obj) adj fuel init (st.start (obj.call init attr)) rng := by
  have h1 := (nComponents_eq_one_iff _).2 hcon
  have hsep : separateComponents adj init = [init] := by
    rw [separateComponents_eq, h1]
    change [compArray adj init 0] = _
    rw [compArray_connected hcon]
  unfold azpFit fitWith
  dsimp only
  rw [(c04_assert_feasible_ok init adj (some p)).2 ⟨hc, by rintro _ ⟨⟩; exact hp⟩, Res.bind_ok, hsep]
  rw [List.map_singleton]
  unfold fitLoop
  rw [Res.bind_ok]
  dsimp only
  unfold fitStep fitLoop
  have hsh := shown_all hfree
  unfold shown at hsh
  rw [hsh]
  rw [← azpComponent_all expf obj fuel adj init attr st rng (List.finRange n).length (by simp)
    (fun i => (List.finRange n).get i) (fun i => by simp) (fun out => scatter (List.finRange n) out fun _ => -1)
    (fun out i => scatter_mem (List.nodup_finRange n) _ _ i)]
  dsimp only
  unfold azpComp subAdj
  cases azpComponent _ _ fuel _ _ rng <;> rfl

section
variable {n : Nat} {ρ : Type} {expf : ℚ → ℚ} {obj : Objective ρ} {adj : Adj n} {attr : Fin n → ρ}

local notation "V" => (fun L : Labels n => obj.call L attr)

theorem hotGrown_contiguous {value : Labels n → ℚ} {take leave : ℚ → Prop} {r : Int}
    {x y : Annealing (Fin n)} (h : HotGrown adj value take leave r x y) (hc : AllContiguous adj x.labels) :
    AllContiguous adj y.labels := by
  induction h with
  | stop => exact hc
  | better ha _ _ ih => exact ih (moved_contiguous hc ha)
  | worse ha _ _ _ ih => exact ih (moved_contiguous hc ha)

theorem hotPassed_contiguous {value : Labels n → ℚ} {take leave : ℚ → Prop} {rs : List Int}
    {x y : Annealing (Fin n)} (h : HotPassed adj value take leave rs x y)
    (hc : AllContiguous adj x.labels) : AllContiguous adj y.labels := by
  induction h with
  | nil => exact hc
  | cons h _ ih => exact ih (hotGrown_contiguous h hc)

theorem hotRounds_contiguous {value : Labels n → ℚ} {take leave : ℚ → Prop}
    {x y : Annealing (Fin n)} (h : HotRounds adj value take leave x y)
    (hc : AllContiguous adj x.labels) : AllContiguous adj y.labels := by
  induction h with
  | last _ hp => exact hotPassed_contiguous hp hc
  | again _ hp _ _ ih => exact ih (hotPassed_contiguous hp hc)

/-- A clustering AZP can be started with. -/
structure Startable (adj : Adj n) (p : Nat) (L : Labels n) : Prop where
  contiguous : AllContiguous adj L
  number : numRegions L = p
  named : ∀ v, L v ≠ -1

theorem Startable.next {p : Nat} {t : ℚ} {x y : Annealing (Fin n)} (h : Startable adj p x.labels)
    (hR : HotRounds adj V (MayTake expf t) (MayLeave expf t) x y) : Startable adj p y.labels := by
  have him := hotRounds_image (expf := expf) hR
  refine ⟨hotRounds_contiguous hR h.contiguous, ?_, fun v hv => ?_⟩
  · rw [← h.number]
    unfold numRegions
    congr 1
    ext z
    simp only [Finset.mem_image, Finset.mem_univ, true_and]
    exact him z
  · obtain ⟨u, hu⟩ := (him (-1)).1 ⟨v, hv⟩
    exact h.named u hu

/-- The strategy object between two runs of AZP. -/
def SaBetween (t : ℚ) (term : Nat) (x : Annealing (Fin n)) (st : Strat n 0) : Prop :=
  ∃ v, st = .sa t term x.worse v (decide (term ≤ x.worse)) x.moved

variable (expf obj adj attr) in
/-- What one run of AZP inside the annealing can do. -/
structure ExactRun (p : Nat) (azp : Option (Labels n) → Strat n 0 → Rng → Res (Labels n × Strat n 0 × Rng)) :
    Prop where
  sound : ∀ {t term x st rng L st' rng'}, Startable adj p x.labels → SaBetween t term x st →
    azp (some x.labels) st rng = .ok (L, st', rng') →
    ∃ y, HotRounds adj V (MayTake expf t) (MayLeave expf t) x y ∧ L = y.labels ∧ SaBetween t term y st'
  complete : ∀ {t term x y st}, Startable adj p x.labels → SaBetween t term x st →
    HotRounds adj V (MayTake expf t) (MayLeave expf t) x y →
    ∃ st', SaBetween t term y st' ∧ ∀ r', ∃ r0, azp (some x.labels) st r0 = .ok (y.labels, st', r')

theorem azpFit_run_sound (o : MstOrder) (he : obj.Exact) (ht : obj.Total) (hs : Spec.Symmetric adj)
    (hcon : Connected adj) {p fuel : Nat} {t : ℚ} {term : Nat} {x : Annealing (Fin n)} {st : Strat n 0}
    {rng : Rng} {L : Labels n} {st' : Strat n 0} {rng' : Rng} (hx : Startable adj p x.labels)
    (hst : SaBetween t term x st)
    (hrun : azpFit o expf obj fuel adj attr p (some x.labels) st rng = .ok (L, st', rng')) :
    ∃ y, HotRounds adj V (MayTake expf t) (MayLeave expf t) x y ∧ L = y.labels ∧ SaBetween t term y st' := by
  obtain ⟨v, rfl⟩ := hst
  rw [azpFit_connected o expf obj fuel hcon attr hx.contiguous (by rw [hx.number]) hx.named] at hrun
  obtain ⟨⟨i⟩, _⟩ := hcon
  obtain ⟨y, h1, h2, h3⟩ := hot_component_sound he ht hs (Nat.zero_lt_of_lt i.isLt) hx.contiguous hrun
  exact ⟨y, h1, h2, _, h3⟩

theorem azpFit_run (o : MstOrder) (he : obj.Exact) (ht : obj.Total) (hs : Spec.Symmetric adj)
    (hcon : Connected adj) (p : Nat) {fuel : Nat} (hf : n + n ^ n < fuel) :
    ExactRun expf obj adj attr p fun cur st rng => azpFit o expf obj fuel adj attr p cur st rng := by
  refine ⟨fun hx hst hrun => azpFit_run_sound o he ht hs hcon hx hst hrun, ?_⟩
  intro t term x y st hx hst hR
  obtain ⟨v, rfl⟩ := hst
  refine ⟨SaAt n 0 attr obj t term y, ⟨_, rfl⟩, fun r' => ?_⟩
  have htot : ∀ rng, azpComponent (Strat.ops expf id attr obj) adj fuel x.labels
      (SaAt n 0 attr obj t term x) rng ≠ .timeout := by
    intro rng h
    obtain ⟨out, hout⟩ := azpFit_total o expf he ht (adj := adj) attr (p : Int) (some x.labels)
      ⟨hx.contiguous, by rw [hx.number], fun v => ⟨v, .refl, hx.named v⟩⟩ fuel hf
      (.sa t term x.worse v (decide (term ≤ x.worse)) x.moved) rng
    rw [azpFit_connected o expf obj fuel hcon attr hx.contiguous (by rw [hx.number]) hx.named] at hout
    have := h.symm.trans hout
    cases this
  obtain ⟨⟨i⟩, _⟩ := id hcon
  obtain ⟨r0, h0⟩ := hot_component_complete he ht hs (Nat.zero_lt_of_lt i.isLt) hx.contiguous (by omega) htot
    hR r'
  refine ⟨r0, ?_⟩
  rw [azpFit_connected o expf obj fuel hcon attr hx.contiguous (by rw [hx.number]) hx.named]
  exact h0

end

/-! ### What holds all the time -/

section
variable {V : Type} [DecidableEq (V → Int)]

omit [DecidableEq (V → Int)] in
/-- What the runs at one temperature keep. -/
theorem atTemperature_keeps {limit : Option Int} {term : Nat} {run : Annealing V → Annealing V → Prop}
    {I : (V → Int) → Prop} (hrun : ∀ x y, I x.labels → run x y → I y.labels) {it : Nat} {x y : Annealing V}
    (h : AtTemperature limit term run it x y) (hx : I x.labels) : I y.labels := by
  induction h with
  | stop => exact hx
  | same _ _ h _ => exact hrun _ _ hx h
  | again _ _ h _ _ ih => exact ih (hrun _ _ hx h)

omit [DecidableEq (V → Int)] in
/-- If something is run at all, what every run establishes holds in the end. -/
theorem atTemperature_ends {limit : Option Int} {term : Nat} {run : Annealing V → Annealing V → Prop}
    {I Q : (V → Int) → Prop} (hrun : ∀ x y, I x.labels → run x y → I y.labels ∧ Q y.labels) {it : Nat}
    {x y : Annealing V} (h : AtTemperature limit term run it x y) (hx : I x.labels)
    (hq : Q x.labels ∨ ((∀ m, limit = some m → (it : Int) < m) ∧ x.worse < term)) :
    I y.labels ∧ Q y.labels := by
  induction h with
  | stop h =>
    refine ⟨hx, hq.resolve_right ?_⟩
    rintro ⟨h1, h2⟩
    rcases h with ⟨m, hm, hl⟩ | h
    · exact absurd (h1 m hm) (not_lt.2 hl)
    · omega
  | same _ _ h _ => exact hrun _ _ hx h
  | again _ _ h _ _ ih => exact ih (hrun _ _ hx h).1 (.inl (hrun _ _ hx h).2)

/-- What holds at the start and is kept at every temperature holds in the end. -/
theorem annealed_keeps {steps reps : Int} {cooling T : ℚ} (hc0 : 0 < cooling) (hc1 : cooling < 1)
    {stay : ℚ → Annealing V → Annealing V → Prop} {I : (V → Int) → Prop}
    (hstay : ∀ t x y, 0 < t → t ≤ T → I x.labels → stay t x y → I y.labels) {t : ℚ} {still : Nat}
    {seen : List (V → Int)} {x : Annealing V} {L : V → Int}
    (h : Annealed steps reps cooling stay t still seen x L) (h0 : 0 < t) (ht : t ≤ T) (hx : I x.labels) :
    I L := by
  have hcool : ∀ t : ℚ, 0 < t → t ≤ T → 0 < t * cooling ∧ t * cooling ≤ T := fun t h0 ht =>
    ⟨mul_pos h0 hc0, (mul_le_of_le_one_right h0.le hc1.le).trans ht⟩
  induction h with
  | out => exact hx
  | repeated _ hs _ => exact hstay _ ⟨_, 0, _⟩ _ h0 ht hx hs
  | moved _ hs _ _ _ ih =>
    have := hstay _ ⟨_, 0, _⟩ _ h0 ht hx hs
    exact ih (hcool _ h0 ht).1 (hcool _ h0 ht).2 this
  | still _ hs _ _ _ ih =>
    have := hstay _ ⟨_, 0, _⟩ _ h0 ht hx hs
    exact ih (hcool _ h0 ht).1 (hcool _ h0 ht).2 this

/-- If there is a temperature at all, what is established at every temperature holds in the end. -/
theorem annealed_ends {steps reps : Int} {cooling T : ℚ} (hc0 : 0 < cooling) (hc1 : cooling < 1)
    {stay : ℚ → Annealing V → Annealing V → Prop} {I Q : (V → Int) → Prop}
    (hstay : ∀ t x y, 0 < t → t ≤ T → x.worse = 0 → I x.labels → stay t x y → I y.labels ∧ Q y.labels)
    {t : ℚ} {still : Nat} {seen : List (V → Int)} {x : Annealing V} {L : V → Int}
    (h : Annealed steps reps cooling stay t still seen x L) (h0 : 0 < t) (ht : t ≤ T) (hx : I x.labels)
    (hq : Q x.labels ∨ (still : Int) < steps) : I L ∧ Q L := by
  have hcool : ∀ t : ℚ, 0 < t → t ≤ T → 0 < t * cooling ∧ t * cooling ≤ T := fun t h0 ht =>
    ⟨mul_pos h0 hc0, (mul_le_of_le_one_right h0.le hc1.le).trans ht⟩
  induction h with
  | out h => exact ⟨hx, hq.resolve_right (not_lt.2 h)⟩
  | repeated _ hs _ => exact hstay _ ⟨_, 0, _⟩ _ h0 ht rfl hx hs
  | moved _ hs _ _ _ ih =>
    have := hstay _ ⟨_, 0, _⟩ _ h0 ht rfl hx hs
    exact ih (hcool _ h0 ht).1 (hcool _ h0 ht).2 this.1 (.inl this.2)
  | still _ hs _ _ _ ih =>
    have := hstay _ ⟨_, 0, _⟩ _ h0 ht rfl hx hs
    exact ih (hcool _ h0 ht).1 (hcool _ h0 ht).2 this.1 (.inl this.2)

end

section
variable {n : Nat} {adj : Adj n} {value : Labels n → ℚ} {take leave : ℚ → Prop} {I : Labels n → Prop}

/-- If no worsening move can be made, the value never rises. -/
theorem hotGrown_cold (hI : ∀ L a r, I L → Admissible adj L a r → I (moved L a r))
    (hcold : ∀ L a r, I L → Admissible adj L a r → value L < value (moved L a r) →
      ¬ take (value (moved L a r) - value L)) {r : Int} {x y : Annealing (Fin n)}
    (h : HotGrown adj value take leave r x y) (hx : I x.labels) :
    I y.labels ∧ value y.labels ≤ value x.labels := by
  induction h with
  | stop => exact ⟨hx, le_rfl⟩
  | better ha hv _ ih => exact ⟨(ih (hI _ _ _ hx ha)).1, (ih (hI _ _ _ hx ha)).2.trans hv⟩
  | worse ha hv ht _ _ => exact absurd ht (hcold _ _ _ hx ha hv)

theorem hotPassed_cold (hI : ∀ L a r, I L → Admissible adj L a r → I (moved L a r))
    (hcold : ∀ L a r, I L → Admissible adj L a r → value L < value (moved L a r) →
      ¬ take (value (moved L a r) - value L)) {rs : List Int} {x y : Annealing (Fin n)}
    (h : HotPassed adj value take leave rs x y) (hx : I x.labels) :
    I y.labels ∧ value y.labels ≤ value x.labels := by
  induction h with
  | nil => exact ⟨hx, le_rfl⟩
  | cons h _ ih =>
    obtain ⟨h1, h2⟩ := hotGrown_cold hI hcold h hx
    exact ⟨(ih h1).1, (ih h1).2.trans h2⟩

theorem hotRounds_cold (hI : ∀ L a r, I L → Admissible adj L a r → I (moved L a r))
    (hcold : ∀ L a r, I L → Admissible adj L a r → value L < value (moved L a r) →
      ¬ take (value (moved L a r) - value L)) {x y : Annealing (Fin n)}
    (h : HotRounds adj value take leave x y) (hx : I x.labels) :
    I y.labels ∧ value y.labels ≤ value x.labels := by
  induction h with
  | last _ hp _ => exact hotPassed_cold hI hcold hp hx
  | again _ hp _ _ ih =>
    obtain ⟨h1, h2⟩ := hotPassed_cold hI hcold hp hx
    exact ⟨(ih h1).1, (ih h1).2.trans h2⟩

end

section Loops
variable {n : Nat} {azp : Option (Labels n) → Strat n 0 → Rng → Res (Labels n × Strat n 0 × Rng)}
  {K : Labels n → Prop} {run : ℚ → Annealing (Fin n) → Annealing (Fin n) → Prop}

theorem belowMax_iff {it : Nat} {limit : Option Int} :
    belowMax it limit = true ↔ ∀ m, limit = some m → (it : Int) < m := by
  cases limit <;> simp [belowMax]

theorem not_belowMax_iff {it : Nat} {limit : Option Int} :
    belowMax it limit = false ↔ ∃ m, limit = some m ∧ m ≤ (it : Int) := by
  cases limit <;> simp [belowMax]

theorem saBetween_alert {t : ℚ} {term : Nat} {x : Annealing (Fin n)} {st : Strat n 0}
    (h : SaBetween t term x st) : st.saAlert = decide (term ≤ x.worse) := by
  obtain ⟨v, rfl⟩ := h; rfl

section
variable {t : ℚ} {term : Nat}
  (hsound : ∀ {x st rng L st' rng'}, K x.labels → SaBetween t term x st →
    azp (some x.labels) st rng = .ok (L, st', rng') →
    ∃ y, run t x y ∧ L = y.labels ∧ SaBetween t term y st' ∧ K y.labels)
include hsound

theorem saInner_sound {limit : Option Int} : ∀ (fuel it : Nat) (x : Annealing (Fin n)) (st : Strat n 0)
    (rng : Rng), K x.labels → SaBetween t term x st → ∀ {cur st' rng'},
    saInner azp limit fuel it (some x.labels) st rng = .ok (cur, st', rng') →
    ∃ y, AtTemperature limit term (run t) it x y ∧ cur = some y.labels ∧ SaBetween t term y st' ∧
      K y.labels := by
  intro fuel
  induction fuel with
  | zero =>
    intro it x st rng hk hst cur st' rng' h
    unfold saInner at h
    rw [saBetween_alert hst] at h
    split_ifs at h with hc
    cases h
    refine ⟨x, .stop ?_, rfl, hst, hk⟩
    by_cases hb : belowMax it limit = true
    · right; simpa [hb] using hc
    · left; exact not_belowMax_iff.1 (by simpa using hb)
  | succ fuel ih =>
    intro it x st rng hk hst cur st' rng' h
    unfold saInner at h
    rw [saBetween_alert hst] at h
    split_ifs at h with hc
    · simp only [Bool.and_eq_true, Bool.not_eq_true', decide_eq_false_iff_not, not_le] at hc
      dsimp only at h
      rw [Res.bind_eq_ok] at h
      obtain ⟨⟨L, st1, rng1⟩, h1, h2⟩ := h
      obtain ⟨y, hy, rfl, hst1, hky⟩ := hsound hk hst h1
      dsimp only at h2
      split_ifs at h2 with he
      · cases h2
        exact ⟨y, .same (belowMax_iff.1 hc.1) hc.2 hy (arrayList_inj he).symm, rfl, hst1, hky⟩
      · obtain ⟨z, i1, i2, i3, i4⟩ := ih (it + 1) y st1 rng1 hky hst1 h2
        exact ⟨z, .again (belowMax_iff.1 hc.1) hc.2 hy (fun e => he (by rw [e])) i1, i2, i3, i4⟩
    · cases h
      refine ⟨x, .stop ?_, rfl, hst, hk⟩
      by_cases hb : belowMax it limit = true
      · right; simpa [hb] using hc
      · left; exact not_belowMax_iff.1 (by simpa using hb)

end

variable (K run) in
/-- Everything `run` allows can be returned by `azp`. -/
def Completes (term : Nat) (azp : Option (Labels n) → Strat n 0 → Rng → Res (Labels n × Strat n 0 × Rng)) :
    Prop :=
  ∀ {t x y st}, K x.labels → SaBetween t term x st → run t x y →
    ∃ st', SaBetween t term y st' ∧ K y.labels ∧
      ∀ r', ∃ r0, azp (some x.labels) st r0 = .ok (y.labels, st', r')

section
variable {t : ℚ} {term : Nat}

theorem saInner_complete {limit : Option Int} {it : Nat} {x y : Annealing (Fin n)}
    (hA : AtTemperature limit term (run t) it x y) : ∃ F, ∀ azp, Completes K run term azp → ∀ fuel, F ≤ fuel →
      ∀ st, K x.labels → SaBetween t term x st → ∃ st', SaBetween t term y st' ∧ K y.labels ∧ ∀ r', ∃ r0,
        saInner azp limit fuel it (some x.labels) st r0 = .ok (some y.labels, st', r') := by
  induction hA with
  | @stop it x h =>
    refine ⟨0, fun azp _ fuel _ st hk hst => ⟨st, hst, hk, fun r' => ⟨r', ?_⟩⟩⟩
    unfold saInner
    rw [if_neg]
    rw [saBetween_alert hst]
    rcases h with h | h
    · rw [not_belowMax_iff.2 h]; simp
    · simp [h]
  | @same it x y hl hw hr he =>
    refine ⟨1, fun azp hcomplete fuel hf st hk hst => ?_⟩
    obtain ⟨fuel, rfl⟩ : ∃ f, fuel = f + 1 := ⟨fuel - 1, by omega⟩
    obtain ⟨st', h1, h2, h3⟩ := hcomplete hk hst hr
    refine ⟨st', h1, h2, fun r' => ?_⟩
    obtain ⟨r0, h4⟩ := h3 r'
    refine ⟨r0, ?_⟩
    unfold saInner
    rw [if_pos (by rw [saBetween_alert hst, belowMax_iff.2 hl]; simpa using hw)]
    dsimp only
    rw [h4, Res.bind_ok]
    dsimp only
    rw [if_pos (by rw [he])]
  | @again it x y z hl hw hr he _ ih =>
    obtain ⟨F, ih⟩ := ih
    refine ⟨F + 1, fun azp hcomplete fuel hf st hk hst => ?_⟩
    obtain ⟨fuel, rfl⟩ : ∃ f, fuel = f + 1 := ⟨fuel - 1, by omega⟩
    obtain ⟨st1, h1, h2, h3⟩ := hcomplete hk hst hr
    obtain ⟨st', g1, g2, g3⟩ := ih azp hcomplete fuel (by omega) st1 h2 h1
    refine ⟨st', g1, g2, fun r' => ?_⟩
    obtain ⟨r1, g4⟩ := g3 r'
    obtain ⟨r0, h4⟩ := h3 r1
    refine ⟨r0, ?_⟩
    unfold saInner
    rw [if_pos (by rw [saBetween_alert hst, belowMax_iff.2 hl]; simpa using hw)]
    dsimp only
    rw [h4, Res.bind_ok]
    dsimp only
    rw [if_neg (fun e => he (arrayList_inj e).symm)]
    exact g4

end

theorem saBetween_reset {t : ℚ} {term : Nat} (hterm : 0 < term) {x : Annealing (Fin n)} {st : Strat n 0}
    (h : SaBetween t term x st) : SaBetween t term ⟨x.labels, 0, x.moved⟩ st.saReset := by
  obtain ⟨v, rfl⟩ := h
  refine ⟨v, ?_⟩
  have : ¬ term ≤ 0 := by omega
  simp [Strat.saReset, this]

theorem saBetween_cool {t : ℚ} {term : Nat} {x : Annealing (Fin n)} {st : Strat n 0}
    (h : SaBetween t term x st) (t' : ℚ) : SaBetween t' term x (st.saSetTemperature t') := by
  obtain ⟨v, rfl⟩ := h
  exact ⟨v, rfl⟩

theorem saBetween_flag {t : ℚ} {term : Nat} {x : Annealing (Fin n)} {st : Strat n 0}
    (h : SaBetween t term x st) (b : Bool) :
    SaBetween t term ⟨x.labels, x.worse, b⟩ (st.saSetMoveMade b) := by
  obtain ⟨v, rfl⟩ := h
  exact ⟨v, rfl⟩

theorem saBetween_moved {t : ℚ} {term : Nat} {x : Annealing (Fin n)} {st : Strat n 0}
    (h : SaBetween t term x st) : st.saMoveMade = x.moved := by
  obtain ⟨v, rfl⟩ := h
  rfl

theorem count_seen (seen : List (Labels n)) (L : Labels n) :
    (seen.map arrayList).count (arrayList L) = seen.count L :=
  List.count_map_of_injective seen arrayList (fun _ _ h => arrayList_inj h) L

section
variable {term : Nat} (hterm : 0 < term) {P : SaParams} {cooling : ℚ}
include hterm

theorem saOuter_sound {f2 : Nat}
    (hsound : ∀ {t x st rng L st' rng'}, K x.labels → SaBetween t term x st →
      azp (some x.labels) st rng = .ok (L, st', rng') →
      ∃ y, run t x y ∧ L = y.labels ∧ SaBetween t term y st' ∧ K y.labels) :
    ∀ (fuel : Nat) (t : ℚ) (nm : Nat) (x : Annealing (Fin n)) (seen : List (Labels n)) (st : Strat n 0)
      (rng : Rng), K x.labels → SaBetween t term x st → ∀ {cur vis st' rng'},
      saOuter azp P cooling f2 fuel t nm (some x.labels) (seen.map arrayList) st rng =
        .ok (cur, vis, st', rng') →
      ∃ L, cur = some L ∧ Annealed P.nonmovingSteps P.repsBeforeTermination cooling
        (fun t x y => AtTemperature P.maxIt term (run t) 0 x y) t nm seen x L := by
  intro fuel
  induction fuel with
  | zero =>
    intro t nm x seen st rng hk hst cur vis st' rng' h
    unfold saOuter at h
    split_ifs at h with hc
    cases h
    exact ⟨_, rfl, .out (not_lt.1 hc)⟩
  | succ fuel ih =>
    intro t nm x seen st rng hk hst cur vis st' rng' h
    unfold saOuter at h
    split_ifs at h with hc
    · dsimp only at h
      rw [Res.bind_eq_ok] at h
      obtain ⟨⟨cur1, st1, rng1⟩, h1, h2⟩ := h
      obtain ⟨y, g1, rfl, g3, g4⟩ := saInner_sound (K := K) (run := run) hsound f2 0 ⟨x.labels, 0, x.moved⟩ st.saReset rng hk
        (saBetween_reset hterm hst) h1
      dsimp only at h2
      rw [count_seen, saBetween_moved (saBetween_cool g3 _)] at h2
      have hmap : seen.map arrayList ++ [arrayList y.labels] = (seen ++ [y.labels]).map arrayList := by simp
      split_ifs at h2 with hr hm
      · cases h2
        exact ⟨_, rfl, .repeated hc g1 hr⟩
      · rw [hmap] at h2
        obtain ⟨L, i1, i2⟩ := ih (t * cooling) nm ⟨y.labels, y.worse, false⟩ _ _ rng1 g4
          (saBetween_flag (saBetween_cool g3 _) false) h2
        exact ⟨L, i1, .moved hc g1 (not_le.1 hr) hm i2⟩
      · rw [hmap] at h2
        obtain ⟨L, i1, i2⟩ := ih (t * cooling) (nm + 1) y _ _ rng1 g4 (saBetween_cool g3 _) h2
        exact ⟨L, i1, .still hc g1 (not_le.1 hr) (by simpa using hm) i2⟩
    · cases h
      exact ⟨_, rfl, .out (not_lt.1 hc)⟩

theorem saOuter_complete
    {t : ℚ} {nm : Nat} {seen : List (Labels n)} {x : Annealing (Fin n)} {L : Labels n}
    (hA : Annealed P.nonmovingSteps P.repsBeforeTermination cooling
        (fun t x y => AtTemperature P.maxIt term (run t) 0 x y) t nm seen x L) :
    ∃ F1 F2, ∀ azp, Completes K run term azp → ∀ f1, F1 ≤ f1 → ∀ f2, F2 ≤ f2 → ∀ st, K x.labels → SaBetween t term x st →
      ∃ vis st', ∀ r', ∃ r0,
        saOuter azp P cooling f2 f1 t nm (some x.labels) (seen.map arrayList) st r0 =
          .ok (some L, vis, st', r') := by
  induction hA with
  | @out t nm seen x h =>
    refine ⟨0, 0, fun azp _ f1 _ f2 _ st hk hst => ⟨seen.map arrayList, st, fun r' => ⟨r', ?_⟩⟩⟩
    unfold saOuter
    rw [if_neg (not_lt.2 h)]
  | @repeated t nm seen x y h hs hr =>
    obtain ⟨F2, hin⟩ := saInner_complete (K := K) (term := term) (run := run) hs
    refine ⟨1, F2, fun azp hcomplete f1 hf1 f2 hf2 st hk hst => ?_⟩
    obtain ⟨f1, rfl⟩ : ∃ f, f1 = f + 1 := ⟨f1 - 1, by omega⟩
    obtain ⟨st', g1, g2, g3⟩ := hin azp hcomplete f2 hf2 st.saReset hk (saBetween_reset hterm hst)
    refine ⟨seen.map arrayList, st', fun r' => ?_⟩
    obtain ⟨r0, g4⟩ := g3 r'
    refine ⟨r0, ?_⟩
    unfold saOuter
    rw [if_pos h]
    dsimp only at g4 ⊢
    rw [g4, Res.bind_ok]
    dsimp only
    rw [count_seen, if_pos hr]
  | @moved t nm seen x y L h hs hr hm _ ih =>
    obtain ⟨F2, hin⟩ := saInner_complete (K := K) (term := term) (run := run) hs
    obtain ⟨F1, F2', ih⟩ := ih
    refine ⟨F1 + 1, max F2 F2', fun azp hcomplete f1 hf1 f2 hf2 st hk hst => ?_⟩
    obtain ⟨f1, rfl⟩ : ∃ f, f1 = f + 1 := ⟨f1 - 1, by omega⟩
    obtain ⟨st1, g1, g2, g3⟩ := hin azp hcomplete f2 (le_trans (le_max_left _ _) hf2) st.saReset hk
      (saBetween_reset hterm hst)
    obtain ⟨vis, st', i1⟩ := ih azp hcomplete f1 (by omega) f2 (le_trans (le_max_right _ _) hf2)
      ((st1.saSetTemperature (t * cooling)).saSetMoveMade false) g2
      (saBetween_flag (saBetween_cool g1 _) false)
    refine ⟨vis, st', fun r' => ?_⟩
    obtain ⟨r1, i2⟩ := i1 r'
    obtain ⟨r0, g4⟩ := g3 r1
    refine ⟨r0, ?_⟩
    unfold saOuter
    rw [if_pos h]
    dsimp only at g4 ⊢
    rw [g4, Res.bind_ok]
    dsimp only
    rw [count_seen, if_neg (not_le.2 hr), saBetween_moved (saBetween_cool g1 _), if_pos hm]
    have hmap : seen.map arrayList ++ [arrayList y.labels] = (seen ++ [y.labels]).map arrayList := by simp
    rw [hmap]
    exact i2
  | @still t nm seen x y L h hs hr hm _ ih =>
    obtain ⟨F2, hin⟩ := saInner_complete (K := K) (term := term) (run := run) hs
    obtain ⟨F1, F2', ih⟩ := ih
    refine ⟨F1 + 1, max F2 F2', fun azp hcomplete f1 hf1 f2 hf2 st hk hst => ?_⟩
    obtain ⟨f1, rfl⟩ : ∃ f, f1 = f + 1 := ⟨f1 - 1, by omega⟩
    obtain ⟨st1, g1, g2, g3⟩ := hin azp hcomplete f2 (le_trans (le_max_left _ _) hf2) st.saReset hk
      (saBetween_reset hterm hst)
    obtain ⟨vis, st', i1⟩ := ih azp hcomplete f1 (by omega) f2 (le_trans (le_max_right _ _) hf2)
      (st1.saSetTemperature (t * cooling)) g2 (saBetween_cool g1 _)
    refine ⟨vis, st', fun r' => ?_⟩
    obtain ⟨r1, i2⟩ := i1 r'
    obtain ⟨r0, g4⟩ := g3 r1
    refine ⟨r0, ?_⟩
    unfold saOuter
    rw [if_pos h]
    dsimp only at g4 ⊢
    rw [g4, Res.bind_ok]
    dsimp only
    rw [count_seen, if_neg (not_le.2 hr), saBetween_moved (saBetween_cool g1 _),
      if_neg (by simp [hm])]
    have hmap : seen.map arrayList ++ [arrayList y.labels] = (seen ++ [y.labels]).map arrayList := by simp
    rw [hmap]
    exact i2

end

end Loops

end Region
