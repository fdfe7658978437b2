import Verif.Lemmas.TabuGuard
import Verif.Lemmas.ReactExactFit
import Verif.Props.AzpTabu
import Verif.Props.MaxPHeu
/-
Property theorems C136: the basic tabu search with `ObjectiveFunctionCenter`.
-/
namespace Region.Props

open Region Spec Relation

/-! ### What is returned -/

/-- C136 (part): for every objective that, like `ObjectiveFunctionCenter` with any metric, centre and
reduction, raises rather than empty a region, and every greedy strategy (also inside the max-p heuristic):
whatever `fit` returns is a clustering into `n_regions` contiguous regions with the region labels of the
start, for all maps, starts, tabu lengths, parameters and draws.  Missing: that it returns, see
`c136_center_raises`. -/
theorem c136_result_partial {n q : Nat} {ρ : Type} (o : MstOrder) (expf : ℚ → ℚ) {obj : Objective ρ}
    (hg : obj.Guarded) (ht : obj.Total) {adj : Adj n} (attr : Fin n → ρ) (p : Nat)
    (initial : Option (Labels n)) (len : Option Nat) (reps : Int) (fuel : Nat) {st : Strat n q}
    (hst : st.Greedy) (rng : Rng) {labels : Labels n} {st' : Strat n q} {rng' : Rng}
    (h : basicTabuFit o expf obj fuel len reps adj attr p initial st rng = .ok (labels, st', rng')) :
    Feasible adj labels p ∧ ∀ init, initial = some init → ∀ x, (∃ v, labels v = x) ↔ ∃ v, init v = x := by
  have := fitWith_comp (σ := Strat n q) o (adj := adj) attr
    (comp := fun idx a init at' st rng =>
      basicComponent (Strat.ops expf (fun i => idx.get i) at' obj) obj at' a len reps fuel init
        (st.start (obj.call init at')) rng)
    (S := fun st => st.Greedy)
    (Q := fun idx init out => KeepsRegions (subAdj adj idx) init out) (R := True) (T := True) p
    initial (fun h => absurd trivial h) (by
      intro idx init st rng _ _ _ hc hst
      refine (basicComponent_guard hg ht (greedy_onlyLowers expf (fun i => idx.get i) _ obj) hc len reps
        fuel True (fun h => absurd trivial h) (hst.start _) rng).mono id id ?_
      rintro q ⟨h1, h2, _⟩
      exact ⟨h2, h1⟩) st hst rng
  obtain ⟨_, lab, h1, hf⟩ := this.ok h
  obtain ⟨h2, h3⟩ := fit_result hf
  have hfit := fitOk_of_keeps h1.1 h2 h3
  have hp : numRegions lab = p := by exact_mod_cast h1.2.1
  refine ⟨⟨hfit.contiguous, by rw [FitOk.numRegions_eq hfit, hp]⟩, ?_⟩
  rintro init rfl
  have : lab = init := h1.2.2
  subst this
  exact hfit.image

/-! ### The exception -/

theorem basicFit_connected {n q : Nat} {ρ : Type} (o : MstOrder) (expf : ℚ → ℚ) (obj : Objective ρ)
    (fuel : Nat) (len : Option Nat) (reps : Int) {adj : Adj n} (hcon : Connected adj) (attr : Fin n → ρ)
    {p : Int} {init : Labels n} (hc : AllContiguous adj init) (hn : (numRegions init : Int) = p)
    (hm : ∀ v, init v ≠ -1) (st : Strat n q) (rng : Rng) :
    basicTabuFit o expf obj fuel len reps adj attr p (some init) st rng =
      basicComponent (Strat.ops expf id attr obj) obj attr adj len reps fuel init
        (st.start (obj.call init attr)) rng := by
  unfold basicTabuFit
  rw [fitWith_connected o hcon hc hn hm]
  have key : ∀ {k : Nat} (hk : k = n) (f : Fin k → Fin n), (∀ i, (f i).val = i.val) →
      (basicComponent (Strat.ops (q := q) expf f (fun i => attr (f i)) obj) obj (fun i => attr (f i))
          (fun i j => adj (f i) (f j)) len reps fuel (fun i => init (f i))
          (st.start (obj.call (fun i => init (f i)) fun i => attr (f i))) rng
        >>= fun z => (.ok (fun v => z.1 (Fin.cast hk.symm v), z.2) : Res (Labels n × Strat n q × Rng))) =
      basicComponent (Strat.ops expf id attr obj) obj attr adj len reps fuel init
        (st.start (obj.call init attr)) rng := by
    intro k hk f hf
    subst hk
    obtain rfl : f = id := funext fun i => Fin.ext (hf i)
    change (basicComponent (Strat.ops expf id attr obj) obj attr adj len reps fuel init
        (st.start (obj.call init attr)) rng >>= _) = _
    generalize basicComponent (Strat.ops expf id attr obj) obj attr adj len reps fuel init
        (st.start (obj.call init attr)) rng = r
    rcases r with ⟨L, s, r⟩ | e | _ <;> rfl
  exact key (List.length_finRange) (fun i => (List.finRange n).get i) (by simp)

section
variable {n q k : Nat} {ρ : Type} {obj : Objective ρ} {attr : Fin k → ρ} {adj : Adj k} {expf : ℚ → ℚ}
  {idx : Fin k → Fin n}

theorem round_moves {L L' : Labels k} {t : Tabu k} {vis : List (List Int)} {stop : Bool} {v : ℚ} {rng : Rng}
    {j : Nat} {m : Move k} {d : ℚ}
    (hb : bestMove obj attr L (possibleMoves adj L ⟨t.items, none⟩) 0 none = .ok (some (j, m, d)))
    (hu : obj.update m.area m.new L attr = some d) (hd : d ≤ 0)
    (hf : booleanAssertFeasible L' adj none = .ok true) (hL : L' = makeMove m.area m.new L) :
    basicRound (Strat.ops (q := q) expf idx attr obj) obj attr adj ⟨L, t, vis, stop, .azp v, rng⟩ =
      .ok (false, ⟨L', t.append ⟨m.area, m.new, L m.area⟩, vis, stop, .azp (v + d), rng⟩) := by
  subst hL
  have hb' : bestMove obj attr L (possibleMoves adj L t) 0 none = .ok (some (j, m, d)) := hb
  unfold basicRound
  simp only [hb', Res.bind_ok, if_pos hd]
  simp [tryMove, Strat.ops, Strat.call, hu, hd, tabuMakeMove, hf]

theorem round_raises {L : Labels k} {t : Tabu k} {vis : List (List Int)} {stop : Bool} {v : ℚ} {rng : Rng}
    {e : Exc} (hb : bestMove obj attr L (possibleMoves adj L ⟨t.items, none⟩) 0 none = .ok none)
    (hi : improvingTabus obj attr L t.items = .raise e) :
    basicRound (Strat.ops (q := q) expf idx attr obj) obj attr adj ⟨L, t, vis, stop, .azp v, rng⟩ =
      .raise e := by
  have hb' : bestMove obj attr L (possibleMoves adj L t) 0 none = .ok none := hb
  unfold basicRound
  simp only [hb', Res.bind_ok]
  simp [basicElse, aspiration, hi]

end

/-- C136 is false: four areas in a row with the attributes 0, 5, 9 and 10, the regions `0, 1 | 2 | 3` and
`ObjectiveFunctionCenter` with its default arguments.  After two improving moves area 1 is alone in the
region it moved to, and evaluating the tabu move back raises `ValueError`: for every tabu length other than
0 and 1 (also the default `None`), termination parameter and random draws.  The clustering reached by
then is feasible. -/
theorem c136_center_raises {q : Nat} (o : MstOrder) (expf : ℚ → ℚ) (len : Option Nat)
    (hlen : ∀ l, len = some l → 2 ≤ l) (reps : Int) (fuel : Nat) (hfuel : 3 ≤ fuel) (v : ℚ) (rng : Rng) :
    Feasible path4 (![0, 0, 1, 2] : Labels 4) 3 ∧
    basicTabuFit (q := q) o expf (centered manhattan meanRow List.sum) fuel len reps path4
      (column ![0, 5, 9, 10]) 3 (some ![0, 0, 1, 2]) (.azp v) rng =
      .raise (.valueError "Found array with 0 sample(s)") := by
  have hfeas : Feasible path4 (![0, 0, 1, 2] : Labels 4) 3 := by
    have := (c04_assert_feasible_ok (![0, 0, 1, 2] : Labels 4) path4 (some 3)).1 (by decide +kernel)
    exact ⟨this.1, by have := this.2 3 rfl; exact_mod_cast this⟩
  refine ⟨hfeas, ?_⟩
  rw [basicFit_connected o expf _ fuel len reps ((nComponents_eq_one_iff _).1 (by decide +kernel)) _ hfeas.1
    (by exact_mod_cast hfeas.2) (by decide)]
  obtain ⟨fuel, rfl⟩ : ∃ f, fuel = f + 3 := ⟨fuel - 3, by omega⟩
  have happ : ∀ m m' : Move 4, ((Tabu.append ⟨[], len⟩ m).append m').items = [m, m'] ∧
      (Tabu.append ⟨[], len⟩ m).items = [m] := by
    intro m m'
    cases len with
    | none => exact ⟨rfl, rfl⟩
    | some l =>
      obtain ⟨l, rfl⟩ : ∃ l', l = l' + 2 := ⟨l - 2, by have := hlen l rfl; omega⟩
      simp [Tabu.append]
  unfold basicComponent
  rw [if_neg (by decide +kernel)]
  unfold basicLoop noteVisit
  dsimp only [Strat.start]
  rw [round_moves (L' := ![0, 1, 1, 2]) (j := 0) (m := ⟨1, 0, 1⟩) (d := -1)
    (by change bestMove _ _ _ (possibleMoves _ _ ⟨[], none⟩) 0 none = _; decide +kernel)
    (by decide +kernel) (by norm_num) (by decide +kernel) (by decide +kernel)]
  simp only [Res.bind_ok]
  unfold basicLoop noteVisit
  dsimp only
  rw [if_neg (by simp), round_moves (L' := ![0, 1, 2, 2]) (j := 0) (m := ⟨2, 1, 2⟩) (d := -3)
    (by rw [(happ _ ⟨0, 0, 0⟩).2]; decide +kernel)
    (by decide +kernel) (by norm_num) (by decide +kernel) (by decide +kernel)]
  simp only [Res.bind_ok]
  unfold basicLoop noteVisit
  dsimp only
  rw [if_neg (by simp), round_raises (e := .valueError "Found array with 0 sample(s)")
    (by rw [(happ _ _).1]; decide +kernel) (by rw [(happ _ _).1]; decide +kernel)]
  rfl

/-- The regions reached before the exception, and what they are worth. -/
example : Feasible path4 (![0, 1, 2, 2] : Labels 4) 3 ∧
    (centered manhattan meanRow List.sum).call (![0, 1, 2, 2] : Labels 4) (column ![0, 5, 9, 10]) = 1 ∧
    (centered manhattan meanRow List.sum).call (![0, 0, 1, 2] : Labels 4) (column ![0, 5, 9, 10]) = 5 := by
  refine ⟨?_, by decide +kernel, by decide +kernel⟩
  have := (c04_assert_feasible_ok (![0, 1, 2, 2] : Labels 4) path4 (some 3)).1 (by decide +kernel)
  exact ⟨this.1, by have := this.2 3 rfl; exact_mod_cast this⟩

/-! ### Short tabu lists -/

/-- C136 (part): with tabu lists of length 0 or 1 and an objective whose differences are exact
(`ObjectiveFunctionCenter` with the sum as reduction, any metric and centre) `fit` does not raise from a
good start, and what it returns is feasible. -/
theorem c136_short_partial {n q : Nat} {ρ : Type} (o : MstOrder) (expf : ℚ → ℚ) {obj : Objective ρ}
    (he : obj.Exact) (ht : obj.Total) {adj : Adj n} (attr : Fin n → ρ) (p : Nat)
    (initial : Option (Labels n)) (hgood : GoodStart adj p initial) {l : Nat} (hl : l ≤ 1) (reps : Int)
    (fuel : Nat) (v : ℚ) (rng : Rng) :
    basicTabuFit (q := q) o expf obj fuel (some l) reps adj attr p initial (.azp v) rng = .timeout ∨
    ∃ labels st' rng', basicTabuFit (q := q) o expf obj fuel (some l) reps adj attr p initial (.azp v)
        rng = .ok (labels, st', rng') ∧ Feasible adj labels p := by
  have := fitWith_comp (σ := Strat n q) o (adj := adj) attr
    (comp := fun idx a init at' st rng =>
      basicComponent (Strat.ops expf (fun i => idx.get i) at' obj) obj at' a (some l) reps fuel init
        (st.start (obj.call init at')) rng)
    (S := fun st => ∃ v, st = .azp v)
    (Q := fun idx init out => KeepsRegions (subAdj adj idx) init out) (R := False) (T := True) p
    initial (fun _ => hgood) (by
      rintro idx init _ rng _ _ _ hc ⟨v, rfl⟩
      refine (basicComponent_short he ht (azp_nonWorsening expf (fun i => idx.get i) _ obj) hc hl reps
        fuel True (fun h => absurd trivial h) ⟨_, rfl⟩ rng).mono id id ?_
      rintro q ⟨h1, h2, _⟩
      exact ⟨h2, h1⟩) (.azp v) ⟨v, rfl⟩ rng
  change (basicTabuFit o expf obj fuel (some l) reps adj attr p initial (.azp v) rng).Post _ _ _ at this
  generalize basicTabuFit o expf obj fuel (some l) reps adj attr p initial (.azp v) rng = x at this ⊢
  cases x with
  | timeout => exact .inl rfl
  | raise e => exact this.elim
  | ok y =>
    obtain ⟨labels, st', rng'⟩ := y
    obtain ⟨_, lab, h1, hf⟩ := this
    obtain ⟨h2, h3⟩ := fit_result hf
    have hfit := fitOk_of_keeps h1.1 h2 h3
    have hp : numRegions lab = p := by exact_mod_cast h1.2.1
    exact .inr ⟨labels, st', rng', rfl, hfit.contiguous, by rw [FitOk.numRegions_eq hfit, hp]⟩

/-- C136 (part): on one island, if moreover no move leaves the objective unchanged, `fit` returns, and
the objective has become no worse. -/
theorem c136_short_returns_partial {n q : Nat} {ρ : Type} (o : MstOrder) (expf : ℚ → ℚ) {obj : Objective ρ}
    (he : obj.Exact) (ht : obj.Total) {adj : Adj n} (hcon : Connected adj) (attr : Fin n → ρ) (p : Nat)
    {init : Labels n} (hf : Feasible adj init p) (hm : ∀ v, init v ≠ -1) (hno : NoTies init obj attr)
    {l : Nat} (hl : l ≤ 1) (reps : Int) (fuel : Nat) (hfuel : p ^ n * (reps.toNat + 1) < fuel) (v : ℚ)
    (rng : Rng) :
    ∃ labels st' rng', basicTabuFit (q := q) o expf obj fuel (some l) reps adj attr p (some init)
        (.azp v) rng = .ok (labels, st', rng') ∧ Feasible adj labels p ∧
      obj.call labels attr ≤ obj.call init attr := by
  rw [basicFit_connected o expf _ fuel _ reps hcon _ hf.1 (by exact_mod_cast hf.2) hm]
  obtain ⟨⟨labels, st', rng'⟩, h1, -, h2, h3⟩ := (basicComponent_short he ht
    (azp_nonWorsening (q := q) expf id attr obj) hf.1 hl reps fuel False
    (fun _ => ⟨he, hno, by rw [hf.2]; exact hfuel⟩)
    (st := (Strat.azp v).start (obj.call init attr)) ⟨_, rfl⟩ rng).total
  refine ⟨labels, st', rng', h1, ⟨h2.1, ?_⟩, lowerMoves_le he h3⟩
  rw [← hf.2]
  unfold numRegions
  congr 1
  ext x
  simpa using h2.2 x

/-- Three areas in a row whose distances from the means are never equal. -/
theorem line3_noTies : NoTies (![0, 0, 1] : Labels 3) (centered manhattan meanRow List.sum)
    (column ![0, 5, 9]) := by
  intro L hL a r hne hu
  have h01 : ∀ x, (∃ i, (![0, 0, 1] : Labels 3) i = x) → x = 0 ∨ x = 1 := by
    rintro x ⟨i, rfl⟩
    fin_cases i <;> simp
  have hLi : ∀ i, L i = 0 ∨ L i = 1 := fun i => h01 _ ((hL _).1 ⟨i, rfl⟩)
  have hr : r = 0 ∨ r = 1 := h01 _ ((hL _).1 (centered_guarded _ _ _ _ _ _ _ _ hu).1)
  obtain ⟨M, rfl⟩ : ∃ M : Fin 3 → Bool, L = fun i => if M i then 1 else 0 :=
    ⟨fun i => decide (L i = 1), funext fun i => by rcases hLi i with h | h <;> simp [h]⟩
  have key : ∀ (M : Fin 3 → Bool) (a : Fin 3) (b : Bool), M a ≠ b →
      (centered manhattan meanRow List.sum).update a (if b then 1 else 0)
        (fun i => if M i then 1 else 0 : Labels 3) (column ![0, 5, 9]) ≠ some 0 := by
    decide +kernel
  rcases hr with rfl | rfl
  · exact key M a false (by intro h; simp [h] at hne) hu
  · exact key M a true (by intro h; simp [h] at hne) hu

example (reps : Int) (v : ℚ) (rng : Rng) :
    ∃ labels st' rng', basicTabuFit (q := 0) .rowMajor (fun _ => 0) (centered manhattan meanRow List.sum)
        (2 ^ 3 * (reps.toNat + 1) + 1) (some 1) reps path3 (column ![0, 5, 9]) 2 (some ![0, 0, 1])
        (.azp v) rng = .ok (labels, st', rng') ∧ Feasible path3 labels 2 ∧
      (centered manhattan meanRow List.sum).call labels (column ![0, 5, 9]) ≤
        (centered manhattan meanRow List.sum).call (![0, 0, 1] : Labels 3) (column ![0, 5, 9]) := by
  have hf : Feasible path3 (![0, 0, 1] : Labels 3) 2 := by
    have := (c04_assert_feasible_ok (![0, 0, 1] : Labels 3) path3 (some 2)).1 (by decide +kernel)
    exact ⟨this.1, by have := this.2 2 rfl; exact_mod_cast this⟩
  exact c136_short_returns_partial .rowMajor (fun _ => 0) (centered_sum_exact manhattan meanRow)
    (centered_total manhattan meanRow List.sum) ((nComponents_eq_one_iff _).1 (by decide +kernel)) _ 2 hf
    (by decide) line3_noTies le_rfl reps _ (Nat.lt_succ_self _) v rng

/-- With a tabu list of length 1 the search of `c136_center_raises` returns. -/
example : (match basicTabuFit (q := 0) .rowMajor (fun _ => 0) (centered manhattan meanRow List.sum) 9 (some 1)
      5 path4 (column ![0, 5, 9, 10]) 3 (some ![0, 0, 1, 2]) (.azp 0) fun _ => 0 with
    | .ok (L, _, _) => arrayList L
    | _ => []) = [0, 1, 2, 2] := by
  decide +kernel

end Region.Props
