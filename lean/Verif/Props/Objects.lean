import Verif.Lemmas.Objects
import Verif.Lemmas.AzpSa
import Verif.Props.Options
import Verif.Props.MaxPExact
import Verif.Props.MaxPHeu
import Verif.Props.PRegionsExact
/-
Properties of the attributes of the clustering objects after a fit.
-/
namespace Region.Props

open Spec

/-! ### C96: a fit that raises leaves the previous result in place -/

section exact
variable {φ : Type} (interp : MetricFn φ → Option Metric) {n m : Nat}
  (solvers : SolverClass → Solvers n) (adj : Adj n) (attr : Fin n → Row m) (nRegions : IntArg)
  (method solver : PyStr) (metric : MetricArg φ) (r : Rng)

/-- C96 for `PRegionsExact`: a fit that does not return leaves every attribute as it was. -/
theorem c96_exact_raises (s : ExactAttrs φ)
    (h : (exactFitPy interp solvers adj attr nRegions method solver metric r s).1 ≠ .ok ()) :
    (exactFitPy interp solvers adj attr nRegions method solver metric r s).2 = s := by
  have hat : Py.Atomic (exactFitPy interp solvers adj attr nRegions method solver metric r) := by
    unfold exactFitPy
    repeat' (refine Py.Atomic.lift_bind fun _ _ => ?_)
    exact Py.Atomic.of_ok fun s => ⟨(), rfl⟩
  exact hat s fun _ => h

/-- C96 for `PRegionsExact`: a fit that returns has assigned every attribute, whatever was there
before: the labels the solver's answer stands for, and the arguments. -/
theorem c96_exact_returns {s t : ExactAttrs φ}
    (h : exactFitPy interp solvers adj attr nRegions method solver metric r s = (.ok (), t)) :
    ∃ p ms ss f M g c L, nRegions = .int p ∧ method = .str ms ∧ solver = .str ss ∧
      getMetricFunction metric = .ok f ∧ (interp f = some g ∨ n < 2) ∧
      getMethod ms = .ok M ∧ getSolverInstance ss = .ok c ∧
      exactFit adj attr p M (solvers c) g r = .ok L ∧
      t = ⟨some p, some L, some ms, some ss, .is f⟩ := by
  unfold exactFitPy at h
  obtain ⟨p, hp, h⟩ := Py.ok_of_lift_bind h
  obtain ⟨-, -, h⟩ := Py.ok_of_lift_bind h
  obtain ⟨-, -, h⟩ := Py.ok_of_lift_bind h
  obtain ⟨f, hf, h⟩ := Py.ok_of_lift_bind h
  obtain ⟨ms, hms, h⟩ := Py.ok_of_lift_bind h
  obtain ⟨ss, hss, h⟩ := Py.ok_of_lift_bind h
  obtain ⟨M, hM, h⟩ := Py.ok_of_lift_bind h
  obtain ⟨g, hg, h⟩ := Py.ok_of_lift_bind h
  obtain ⟨c, hc, h⟩ := Py.ok_of_lift_bind h
  obtain ⟨L, hL, h⟩ := Py.ok_of_lift_bind h
  have hp' : nRegions = .int p := by
    cases nRegions with
    | other => cases hp
    | int i =>
      simp only [checkNRegions] at hp
      split_ifs at hp
      cases hp
      rfl
  have hms' : method = .str ms := by cases method <;> cases hms; rfl
  have hss' : solver = .str ss := by cases solver <;> cases hss; rfl
  have hg' : interp f = some g ∨ n < 2 := by
    unfold callable at hg
    split at hg
    · rename_i hi; cases hg; exact Or.inl hi
    · split_ifs at hg with h2
      exact Or.inr (by omega)
  refine ⟨p, ms, ss, f, M, g, c, L, hp', hms', hss', hf, hg', hM, hc, hL, ?_⟩
  exact (congrArg Prod.snd h).symm

end exact

/-- The name of the solver is misspelt. -/
example : exactFitPy (φ := Unit) (fun _ => some manhattanM) (n := 4) (m := 1) (fun _ => giveUp 4) path4
      (ramp 4) (.int 2) (.str "Tree") (.str "Frob") .none (fun _ => 0)
      ⟨some 3, some [0, 0, 1, 2], some "flow", some "cbc", .notSet⟩ =
    (.raise (.valueError solverMsg), ⟨some 3, some [0, 0, 1, 2], some "flow", some "cbc", .notSet⟩) := by
  decide +kernel

section azp
variable {ω : Type} (w : ω) {n q : Nat} {ρ : Type} (o : MstOrder) (expf : ℚ → ℚ)
  (obj : Objective ρ) (fuel : Nat) (adj : Adj n) (attr : Fin n → ρ) (p : Int)
  (initial : Option (Labels n)) (st : Strat n q) (rng : Rng)

/-- C96 for `AZP`: a fit that does not return leaves `labels_` and `n_regions` as they were; the objective
function is replaced all the same. -/
theorem c96_azp_raises (s : AzpAttrs ω)
    (h : ∀ x, (azpFitPy w o expf obj fuel adj attr p initial st rng s).1 ≠ .ok x) :
    (azpFitPy w o expf obj fuel adj attr p initial st rng s).2 = ⟨s.nRegions, s.labels, some w⟩ := by
  unfold azpFitPy at h ⊢
  rw [Py.bind_set] at h ⊢
  cases hx : azpFit o expf obj fuel adj attr p initial st rng with
  | ok a => rw [hx] at h; exact absurd rfl (h _)
  | raise e => rfl
  | timeout => rfl

/-- C96 for `AZP`: a fit that returns has stored the labels it found and the number of regions
asked for. -/
theorem c96_azp_returns {s t : AzpAttrs ω} {st' : Strat n q} {rng' : Rng}
    (h : azpFitPy w o expf obj fuel adj attr p initial st rng s = (.ok (st', rng'), t)) :
    ∃ L, azpFit o expf obj fuel adj attr p initial st rng = .ok (L, st', rng') ∧
      t = ⟨some p, some (arrayList L), some w⟩ := by
  unfold azpFitPy at h
  rw [Py.bind_set] at h
  obtain ⟨⟨L, st1, r1⟩, h1, h⟩ := Py.ok_of_lift_bind h
  have h2 := congrArg Prod.fst h
  cases h2
  exact ⟨L, h1, (congrArg Prod.snd h).symm⟩

end azp

example : (azpFitPy (q := 0) () .rowMajor (fun _ => 0) (pairwise manhattan) 30 path4 (ramp 4) 2
      (some ![0, 1, 0, 1]) (.azp 0) (fun _ => 0) ⟨some 3, some [0, 1, 2], none⟩).2.labels =
    some [0, 1, 2] := by decide +kernel

example : (azpFitPy (q := 0) () .rowMajor (fun _ => 0) (pairwise manhattan) 30 path4 (ramp 4) 2
      (some ![0, 1, 1, 1]) (.azp 0) (fun _ => 0) .fresh).2.labels = some [0, 0, 1, 1] := by
  decide +kernel

section sa
variable {n : Nat} {ρ : Type} (o : MstOrder) (expf : ℚ → ℚ) (obj : Objective ρ)
  (f1 f2 f3 : Nat) (P : SaParams) (self : SaObj) (adj : Adj n) (attr : Fin n → ρ) (p : Int)
  (initial : Option (Labels n)) (cooling : ℚ) (rng : Rng)

/-- C96 for annealing: a fit that does not return leaves `labels_` as it was; one that returns has
stored the labels it found.  (The part about `n_regions` is false.) -/
theorem c96_sa_partial (s : SaAttrs) :
    ((∀ x, (saFitPy o expf obj f1 f2 f3 P self adj attr p initial cooling rng s).1 ≠ .ok x) →
      (saFitPy o expf obj f1 f2 f3 P self adj attr p initial cooling rng s).2 = s) ∧
    (∀ self' rng' t,
      saFitPy o expf obj f1 f2 f3 P self adj attr p initial cooling rng s = (.ok (self', rng'), t) →
      ∃ L st, saFit o expf obj f1 f2 f3 P self adj attr p initial cooling rng =
        .ok (L, self', st, rng') ∧ t.getLabels = .ok (L.map fun l => arrayList l)) := by
  constructor
  · intro h
    have hat : Py.Atomic (saFitPy o expf obj f1 f2 f3 P self adj attr p initial cooling rng) :=
      Py.Atomic.lift_bind fun _ _ => Py.Atomic.of_ok fun s => ⟨_, rfl⟩
    exact hat s h
  · intro self' rng' t h
    unfold saFitPy at h
    obtain ⟨⟨L, o1, st, r1⟩, h1, h⟩ := Py.ok_of_lift_bind h
    have h2 := congrArg Prod.fst h
    cases h2
    refine ⟨L, st, h1, ?_⟩
    have h3 : _ = t := congrArg Prod.snd h
    rw [← h3]
    rfl

/-- C96 fails for annealing: `n_regions` is never assigned. -/
theorem c96_sa_n_regions_false (s : SaAttrs) :
    (saFitPy o expf obj f1 f2 f3 P self adj attr p initial cooling rng s).2.nRegions = s.nRegions := by
  unfold saFitPy
  rcases Py.bind_lift_cases (saFit o expf obj f1 f2 f3 P self adj attr p initial cooling rng)
    (fun x => (do
      Py.set fun s => { s with labels := some (x.1.map fun l => arrayList l) }
      pure (x.2.1, x.2.2.2) : Py SaAttrs (SaObj × Rng))) s with ⟨a, -, h⟩ | ⟨-, h, -⟩
  · exact (congrArg (fun y => y.2.nRegions) h)
  · exact congrArg SaAttrs.nRegions h

end sa

/-- A successful fit after which `n_regions` is still `None`. -/
example : (match saFitPy .rowMajor (fun _ => 0) (pairwise manhattan) 20 5 30 saDemo .fresh path4
      (ramp 4) 2 (some ![0, 1, 1, 1]) (1/2) (fun _ => 0) .fresh with
    | (.ok _, t) => (t.nRegions, t.labels)
    | _ => (none, none)) = (none, some (some [0, 0, 1, 1])) := by decide +kernel

/-- Before the first fit every attribute is `None`, except that the metric of the exact classes and of the
max-p heuristic is a function that raises, and that annealing has no `labels_`. -/
theorem c96_unfitted (ω φ μ : Type) :
    (AzpAttrs.fresh : AzpAttrs ω) = ⟨none, none, none⟩ ∧
    (ExactAttrs.fresh : ExactAttrs φ) = ⟨none, none, none, none, .notSet⟩ ∧
    (MaxPExactAttrs.fresh : MaxPExactAttrs φ) = ⟨none, none, .notSet⟩ ∧
    (MaxPAttrs.fresh : MaxPAttrs μ) = ⟨none, none, none⟩ ∧
    SaAttrs.fresh.nRegions = none ∧
    SaAttrs.fresh.getLabels = .raise .attributeError := ⟨rfl, rfl, rfl, rfl, rfl, rfl⟩

/-- Before the first fit calling the metric of an exact object raises `MissingMetric`; after a fit that
returns it never does: the call is one of the function asked for (which raises `TypeError` if this is
Python's `None`). -/
theorem c96_missing_metric {φ ψ : Type} (interp' : MetricFn φ → Option ψ) :
    (ExactAttrs.fresh : ExactAttrs φ).metric.call interp' = .raise .runtimeError ∧
    (MaxPExactAttrs.fresh : MaxPExactAttrs φ).metric.call interp' = .raise .runtimeError ∧
    (∀ (interp : MetricFn φ → Option Metric) {n m : Nat} (solvers : SolverClass → Solvers n)
      (adj : Adj n) (attr : Fin n → Row m) (p : IntArg) (ms ss : PyStr) (metric : MetricArg φ)
      (r : Rng) (s t : ExactAttrs φ), exactFitPy interp solvers adj attr p ms ss metric r s = (.ok (), t) →
      ∃ f, getMetricFunction metric = .ok f ∧ (∀ g, interp' f = some g → t.metric.call interp' = .ok g) ∧
        (interp' f = none → t.metric.call interp' = .raise .typeError)) := by
  refine ⟨rfl, rfl, ?_⟩
  intro interp n m solvers adj attr p ms ss metric r s t h
  obtain ⟨_, _, _, f, _, _, _, _, -, -, -, hf, -, -, -, -, rfl⟩ := c96_exact_returns interp solvers adj
    attr p ms ss metric r h
  simp only [MetricAttr.call]
  refine ⟨f, hf, fun g hg => by rw [hg], fun hg => by rw [hg]⟩

section maxpexact
variable {φ : Type} (interp : MetricFn φ → Option Metric) {n m : Nat}
  (solvers : SolverClass → Solver (OrderVar n)) (adj : Adj n) (attr : Fin n → Row m) (quota : Quota n)
  (solver : PyStr) (metric : MetricArg φ)

/-- C96 for `MaxPRegionsExact`: a fit that does not return leaves `labels_` and `solver` as they were.
(The part about `metric` is false.) -/
theorem c96_maxp_exact_partial (s : MaxPExactAttrs φ)
    (h : (maxpExactFitPy interp solvers adj attr quota solver metric s).1 ≠ .ok ()) :
    let t := (maxpExactFitPy interp solvers adj attr quota solver metric s).2
    t.labels = s.labels ∧ t.solver = s.solver := by
  unfold maxpExactFitPy at h ⊢
  cases hm : getMetricFunction metric with
  | raise e => exact ⟨rfl, rfl⟩
  | timeout => exact ⟨rfl, rfl⟩
  | ok f =>
    rw [hm] at h
    rw [Py.bind_lift_ok, Py.bind_set] at h ⊢
    revert h
    generalize hs1 : ({ s with metric := .is f } : MaxPExactAttrs φ) = s1
    intro h
    have hs2 : s1.labels = s.labels ∧ s1.solver = s.solver := by subst hs1; exact ⟨rfl, rfl⟩
    rw [← hs2.1, ← hs2.2]
    have hat : Py.Atomic (do
        Py.lift (checkSolver solver)
        let g ← Py.lift (callable interp n f)
        let prob ← Py.lift (maxpLp adj (fun i j => g m (attr i) (attr j)) quota)
        let solverName ← Py.lift solver.get
        let c ← Py.lift (getSolverInstance solverName)
        Py.set fun s => { s with labels := some (arrayList (maxpDecode (solvers c prob))) }
        Py.set fun s => { s with solver := some c } : Py (MaxPExactAttrs φ) Unit) := by
      repeat' (refine Py.Atomic.lift_bind fun _ _ => ?_)
      exact Py.Atomic.of_ok fun s => ⟨(), rfl⟩
    have := hat s1 fun _ => h
    exact ⟨congrArg MaxPExactAttrs.labels this, congrArg MaxPExactAttrs.solver this⟩

/-- C96 for `MaxPRegionsExact`: what a fit that returns has stored. -/
theorem c96_maxp_exact_returns {s t : MaxPExactAttrs φ}
    (h : maxpExactFitPy interp solvers adj attr quota solver metric s = (.ok (), t)) :
    ∃ ss f g c L, solver = .str ss ∧ getMetricFunction metric = .ok f ∧
      (interp f = some g ∨ n < 2) ∧ getSolverInstance ss = .ok c ∧
      maxpExactFit adj attr quota (solvers c) g = .ok L ∧
      t = ⟨some (arrayList L), some c, .is f⟩ := by
  unfold maxpExactFitPy at h
  obtain ⟨f, hf, h⟩ := Py.ok_of_lift_bind h
  rw [Py.bind_set] at h
  obtain ⟨-, -, h⟩ := Py.ok_of_lift_bind h
  obtain ⟨g, hg, h⟩ := Py.ok_of_lift_bind h
  obtain ⟨prob, hP, h⟩ := Py.ok_of_lift_bind h
  obtain ⟨ss, hss, h⟩ := Py.ok_of_lift_bind h
  obtain ⟨c, hc, h⟩ := Py.ok_of_lift_bind h
  have hss' : solver = .str ss := by cases solver <;> cases hss; rfl
  have hg' : interp f = some g ∨ n < 2 := by
    unfold callable at hg
    split at hg
    · rename_i hi; cases hg; exact Or.inl hi
    · split_ifs at hg with h2
      exact Or.inr (by omega)
  refine ⟨ss, f, g, c, _, hss', hf, hg', hc, ?_, (congrArg Prod.snd h).symm⟩
  unfold maxpExactFit
  rw [hP]
  rfl

/-- C96 fails for `MaxPRegionsExact`: a fit rejected because of its solver has already replaced the
metric. -/
theorem c96_maxp_exact_metric_false (s : MaxPExactAttrs φ) {f : MetricFn φ}
    (hm : getMetricFunction metric = .ok f) {e : Exc} (hs : checkSolver solver = .raise e) :
    maxpExactFitPy interp solvers adj attr quota solver metric s =
      (.raise e, { s with metric := .is f }) := by
  unfold maxpExactFitPy
  rw [hm, Py.bind_lift_ok, Py.bind_set, hs]
  rfl

end maxpexact

example : maxpExactFitPy (φ := Unit) (fun _ => some manhattanM) (n := 4) (m := 1)
      (fun _ _ _ => none) path4 (ramp 4) pathQuota (.str "Frob") (.str "l1")
      ⟨some [0, 0, 1, 1], some .cbc, .is (.sk .euclidean)⟩ =
    (.raise (.valueError solverMsg), ⟨some [0, 0, 1, 1], some .cbc, .is (.sk .manhattan)⟩) :=
  c96_maxp_exact_metric_false _ _ _ _ _ _ _ _ rfl (by decide +kernel)

section maxp
variable {ς μ : Type} (mu : μ) {n q : Nat} {ρ : Type} (ls : LocalSearch ς n q)
  (metric : ρ → ρ → ℚ) (obj : Objective ρ) (adj : Adj n) (attr : Fin n → ρ)
  (spat : Fin n → Fin q → ℚ) (thr : Fin q → ℚ) (maxIt : Nat) (st : ς) (r : Rng)

/-- C96 for the max-p heuristic: a fit that returns has stored the labels it found, if it found any.
(The part about `n_regions` is false, and so is the part about fits that do not return.) -/
theorem c96_maxp_partial {s t : MaxPAttrs μ} {st' : ς} {r' : Rng}
    (h : maxpFitPy mu ls metric obj adj attr spat thr maxIt st r s = (.ok (st', r'), t)) :
    ∃ p L, maxpFit ls metric obj adj attr spat thr maxIt st r = .ok (p, L, st', r') ∧
      t.metric = some mu ∧
      t.labels = match L with | some L => some (arrayList L) | none => s.labels := by
  unfold maxpFitPy at h
  rw [Py.bind_set] at h
  obtain ⟨⟨p, kept, r1⟩, hc, h⟩ := Py.ok_of_lift_bind h
  obtain ⟨⟨feasible, r2⟩, ha, h⟩ := Py.ok_of_lift_bind h
  dsimp only at h
  obtain ⟨-, h2, h3⟩ := roundsPy_spec ls obj attr p spat thr feasible feasible none st r2
    ({ s with metric := some mu } : MaxPAttrs μ)
  rw [h] at h2 h3
  rcases h3 with ⟨b, st1, r3, h4, h5, h6⟩ | ⟨-, h5, -⟩
  · cases h5
    refine ⟨p, b.map Prod.fst, ?_, h2, ?_⟩
    · simp only [maxpFit, hc, ha, h4, Res.bind_ok]
    · dsimp only at h6
      rw [h6]
      split_ifs with hf
      · subst hf
        simp only [searchOuter, Res.ok.injEq, Prod.mk.injEq] at h4
        rw [← h4.1]
        rfl
      · have := searchOuter_some ls obj attr p spat thr feasible _ _ _ _ h4 hf (Or.inr hf)
        cases b with
        | none => simp at this
        | some b => rfl
  · exact absurd rfl (h5 (st', r'))

/-- C96 fails for the max-p heuristic: `n_regions` is never assigned, and the metric is replaced whatever
happens. -/
theorem c96_maxp_n_regions_false (s : MaxPAttrs μ) :
    (maxpFitPy mu ls metric obj adj attr spat thr maxIt st r s).2.nRegions = s.nRegions ∧
    (maxpFitPy mu ls metric obj adj attr spat thr maxIt st r s).2.metric = some mu := by
  unfold maxpFitPy
  rw [Py.bind_set]
  rcases Py.bind_lift_cases (construct metric adj attr spat thr maxIt 0 [] r) _ _ with
    ⟨⟨p, kept, r1⟩, -, h⟩ | ⟨-, h, -⟩
  · rw [h]
    rcases Py.bind_lift_cases (assignAll metric adj attr kept r1) _ _ with
      ⟨⟨feasible, r2⟩, -, h⟩ | ⟨-, h, -⟩
    · dsimp only
      rw [h]
      have := roundsPy_spec ls obj attr p spat thr feasible feasible none st r2
        ({ s with metric := some mu } : MaxPAttrs μ)
      exact ⟨this.1, this.2.1⟩
    · dsimp only
      rw [h]
      exact ⟨rfl, rfl⟩
  · rw [h]
    exact ⟨rfl, rfl⟩

/-- C96: what the max-p heuristic leaves in `labels_` when it does not return: the old labels, or the
best labels of the rounds of local search completed so far. -/
theorem c96_maxp_raises {s : MaxPAttrs μ}
    (h : ∀ x, (maxpFitPy mu ls metric obj adj attr spat thr maxIt st r s).1 ≠ .ok x) :
    (maxpFitPy mu ls metric obj adj attr spat thr maxIt st r s).2.labels = s.labels ∨
    ∃ p kept r1 feasible r2 k b st' r', construct metric adj attr spat thr maxIt 0 [] r =
        .ok (p, kept, r1) ∧ assignAll metric adj attr kept r1 = .ok (feasible, r2) ∧
      0 < k ∧ k < feasible.length ∧
      searchOuter ls obj attr p spat thr feasible (feasible.take k) none st r2 = .ok (b, st', r') ∧
      (maxpFitPy mu ls metric obj adj attr spat thr maxIt st r s).2.labels =
        b.map fun b => arrayList b.1 := by
  revert h
  unfold maxpFitPy
  rw [Py.bind_set]
  intro h
  rcases Py.bind_lift_cases (construct metric adj attr spat thr maxIt 0 [] r) _ _ with
    ⟨⟨p, kept, r1⟩, hc, h1⟩ | ⟨-, h1, -⟩
  · rw [h1] at h ⊢
    dsimp only at h ⊢
    rcases Py.bind_lift_cases (assignAll metric adj attr kept r1) _ _ with
      ⟨⟨feasible, r2⟩, ha, h1⟩ | ⟨-, h1, -⟩
    · rw [h1] at h ⊢
      dsimp only at h ⊢
      obtain ⟨-, -, h3⟩ := roundsPy_spec ls obj attr p spat thr feasible feasible none st r2
        ({ s with metric := some mu } : MaxPAttrs μ)
      rcases h3 with ⟨b, st1, r3, -, h5, -⟩ | ⟨-, -, k, hk, b, st', r', h6, h7⟩
      · exact absurd h5 (h _)
      · by_cases h0 : k = 0
        · left
          rw [h7, if_pos h0]
        · right
          rw [if_neg h0] at h7
          exact ⟨p, kept, r1, feasible, r2, k, b, st', r', hc, ha, by omega, hk, h6, h7⟩
    · rw [h1]
      exact Or.inl rfl
  · rw [h1]
    exact Or.inl rfl

/-- C96 fails for the max-p heuristic with `max_it` 0: the fit returns, and the labels are still those of
the fit before. -/
theorem c96_maxp_stale_false (s : MaxPAttrs μ) :
    maxpFitPy mu ls metric obj adj attr spat thr 0 st r s =
      (.ok (st, r), { s with metric := some mu }) := rfl

end maxp

/-- The heuristic on the path, first with `max_it` 1, then with `max_it` 0 on a smaller map. -/
example :
    (let fit1 := maxpFitPy () (azpSearch (q := 1) .rowMajor (fun _ => 0) (pairwise manhattan) 30 path4
        (ramp 4)) manhattan (pairwise manhattan) path4 (ramp 4) (fun _ _ => 1) (fun _ => 2) 1 (.azp 0)
        (fun _ => 0) .fresh
      let fit2 := maxpFitPy () (azpSearch (q := 1) .rowMajor (fun _ => 0) (pairwise manhattan) 30 path3
        (ramp 3)) manhattan (pairwise manhattan) path3 (ramp 3) (fun _ _ => 1) (fun _ => 2) 0 (.azp 0)
        (fun _ => 0) fit1.2
      (fit1.1.isOk, fit1.2.labels, fit1.2.nRegions, fit2.1.isOk, fit2.2.labels)) =
    (true, some [0, 0, 1, 1], none, true, some [0, 0, 1, 1]) := by decide +kernel

/-! ### C97: the exact methods check their arguments -/

/-- The names of the methods, in any letter case. -/
def MethodName (s : String) : Prop := s.toLower = "flow" ∨ s.toLower = "order" ∨ s.toLower = "tree"

/-- The names of the solvers, in any letter case. -/
def SolverName (s : String) : Prop :=
  s.toLower = "cbc" ∨ s.toLower = "cplex" ∨ s.toLower = "glpk" ∨ s.toLower = "gurobi"

section exact
variable {φ : Type} (interp : MetricFn φ → Option Metric) {n m : Nat}
  (solvers : SolverClass → Solvers n) (adj : Adj n) (attr : Fin n → Row m)
  (method solver : PyStr) (metric : MetricArg φ) (r : Rng) (s : ExactAttrs φ)

/-- C97: the number of regions is checked first, whatever the other arguments are: it has to be an
integer between 1 and the number of areas. -/
theorem c97_n_regions :
    exactFitPy interp solvers adj attr .other method solver metric r s =
      (.raise (.valueError "The n_regions argument must be a positive integer."), s) ∧
    (∀ p : Int, p ≤ 0 → exactFitPy interp solvers adj attr (.int p) method solver metric r s =
      (.raise (.valueError "The n_regions argument must be a positive integer."), s)) ∧
    (∀ p : Int, 0 < p → (n : Int) < p → exactFitPy interp solvers adj attr (.int p) method solver metric r s =
      (.raise (.valueError "The number of regions must be less than the number of areas."), s)) := by
  refine ⟨rfl, fun p hp => ?_, fun p hp hn => ?_⟩
  · have : checkNRegions n (.int p) =
        .raise (.valueError "The n_regions argument must be a positive integer.") := if_pos hp
    unfold exactFitPy
    rw [this]
    rfl
  · have : checkNRegions n (.int p) = .raise
        (.valueError "The number of regions must be less than the number of areas.") :=
      (if_neg (by omega)).trans (if_pos hn)
    unfold exactFitPy
    rw [this]
    rfl

variable {p : Int} (hp : 0 < p) (hn : p ≤ n)
include hp hn

theorem checked_n : checkNRegions n (.int p) = .ok p := by
  exact (if_neg (by omega)).trans (if_neg (by omega))

/-- C97: then the method is checked. -/
theorem c97_method (h : ∀ ms, method = .str ms → ¬ MethodName ms) :
    exactFitPy interp solvers adj attr (.int p) method solver metric r s =
      (.raise (.valueError
        "The method argument must be one of the following strings: 'flow', 'order', or 'tree'."), s) := by
  unfold exactFitPy
  rw [checked_n hp hn]
  have : checkMethod method = .raise (.valueError
      "The method argument must be one of the following strings: 'flow', 'order', or 'tree'.") := by
    cases method with
    | other => rfl
    | str ms =>
      have := h ms rfl
      unfold MethodName at this
      push Not at this
      simp [checkMethod, this]
  rw [this]
  rfl

/-- C97: then the solver. -/
theorem c97_solver {ms : String} (hm : MethodName ms) (h : ∀ ss, solver = .str ss → ¬ SolverName ss) :
    exactFitPy interp solvers adj attr (.int p) (.str ms) solver metric r s =
      (.raise (.valueError "The solver argument must be one of the following strings: \"cbc\", \"cplex\", \"glpk\", or \"gurobi\"."), s) := by
  unfold exactFitPy
  rw [checked_n hp hn, (c17_method ms).2.1.2 hm]
  have : checkSolver solver = .raise (.valueError solverMsg) := by
    cases solver with
    | other => rfl
    | str ss =>
      have := h ss rfl
      unfold SolverName at this
      push Not at this
      simp [checkSolver, solverNames, this]
  rw [this]
  rfl

/-- C97: then the metric. -/
theorem c97_metric {ms ss : String} (hm : MethodName ms) (hs : SolverName ss) {e : Exc}
    (h : getMetricFunction metric = .raise e) :
    exactFitPy interp solvers adj attr (.int p) (.str ms) (.str ss) metric r s = (.raise e, s) := by
  unfold exactFitPy
  rw [checked_n hp hn, (c17_method ms).2.1.2 hm, (c17_solver_names ss).2 hs, h]
  rfl

/-- C97: when all arguments are good the outcome is the outcome of the chosen method with the chosen
solver and metric. -/
theorem c97_accepts {ms ss : String} {M : Method} {c : SolverClass} {f : MetricFn φ} {g : Metric}
    (hm : MethodName ms) (hs : SolverName ss) (hM : getMethod ms = .ok M)
    (hc : getSolverInstance ss = .ok c) (hf : getMetricFunction metric = .ok f)
    (hg : interp f = some g) :
    (exactFitPy interp solvers adj attr (.int p) (.str ms) (.str ss) metric r s).1 =
      (exactFit adj attr p M (solvers c) g r >>= fun _ => .ok ()) := by
  have hcall : callable interp n f = .ok g := by
    unfold callable
    rw [hg]
  unfold exactFitPy
  rw [checked_n hp hn, (c17_method ms).2.1.2 hm, (c17_solver_names ss).2 hs, hf]
  simp only [Py.bind_lift_ok, PyStr.get]
  rw [hM, Py.bind_lift_ok, hcall, Py.bind_lift_ok, hc, Py.bind_lift_ok]
  cases exactFit adj attr p M (solvers c) g r <;> rfl

/-- C97 fails for the metric "precomputed", which is accepted and then cannot be called. -/
theorem c97_precomputed_false {ms ss : String} (hm : MethodName ms) (hs : SolverName ss)
    (hnone : interp .pyNone = none) (h2 : 2 ≤ n) :
    exactFitPy interp solvers adj attr (.int p) (.str ms) (.str ss) (.str "precomputed") r s =
      (.raise .typeError, s) := by
  obtain ⟨M, hM⟩ := (c17_method ms).1.1 ((c17_method ms).2.1.2 hm)
  have hcall : callable interp n .pyNone = .raise .typeError := by
    unfold callable
    rw [hnone]
    exact if_pos h2
  unfold exactFitPy
  rw [checked_n hp hn, (c17_method ms).2.1.2 hm, (c17_solver_names ss).2 hs, c17_precomputed]
  simp only [Py.bind_lift_ok, PyStr.get]
  rw [hM, Py.bind_lift_ok, hcall]
  rfl

end exact

example : exactFitPy (φ := Unit) (fun _ => some manhattanM) (n := 4) (m := 1) (fun _ => giveUp 4) path4
      (ramp 4) (.int 5) (.str "simplex") (.str "Frob") .other (fun _ => 0) .fresh =
    (.raise (.valueError "The number of regions must be less than the number of areas."), .fresh) :=
  (c97_n_regions _ _ _ _ _ _ _ _ _).2.2 5 (by decide) (by decide)

example : exactFitPy (φ := Unit) (fun _ => some manhattanM) (n := 4) (m := 1) (fun _ => giveUp 4) path4
      (ramp 4) (.int 4) (.str "simplex") (.str "Frob") .other (fun _ => 0) .fresh =
    (.raise (.valueError
      "The method argument must be one of the following strings: 'flow', 'order', or 'tree'."), .fresh) :=
  c97_method _ _ _ _ _ _ _ _ _ (by decide) (by decide) (by
    rintro ms ⟨⟩
    unfold MethodName
    decide +kernel)

section maxpexact
variable {φ : Type} (interp : MetricFn φ → Option Metric) {n m : Nat}
  (solvers : SolverClass → Solver (OrderVar n)) (adj : Adj n) (attr : Fin n → Row m) (quota : Quota n)
  (solver : PyStr) (metric : MetricArg φ) (s : MaxPExactAttrs φ)

/-- C97 for `MaxPRegionsExact`: the metric is checked first, then the solver; when both are good the
outcome is that of building and solving the problem. -/
theorem c97_maxp_exact :
    (∀ e, getMetricFunction metric = .raise e →
      (maxpExactFitPy interp solvers adj attr quota solver metric s).1 = .raise e) ∧
    (∀ f, getMetricFunction metric = .ok f → (∀ ss, solver = .str ss → ¬ SolverName ss) →
      (maxpExactFitPy interp solvers adj attr quota solver metric s).1 = .raise (.valueError "The solver argument must be one of the following strings: \"cbc\", \"cplex\", \"glpk\", or \"gurobi\".")) ∧
    (∀ f g ss c, getMetricFunction metric = .ok f → interp f = some g → solver = .str ss →
      SolverName ss → getSolverInstance ss = .ok c →
      (maxpExactFitPy interp solvers adj attr quota solver metric s).1 =
        (maxpExactFit adj attr quota (solvers c) g >>= fun _ => .ok ())) := by
  refine ⟨fun e h => ?_, fun f hf h => ?_, fun f g ss c hf hg hss hs hc => ?_⟩
  · unfold maxpExactFitPy
    rw [h]
    rfl
  · have : checkSolver solver = .raise (.valueError solverMsg) := by
      cases solver with
      | other => rfl
      | str ss =>
        have := h ss rfl
        unfold SolverName at this
        push Not at this
        simp [checkSolver, solverNames, this]
    unfold maxpExactFitPy
    rw [hf, Py.bind_lift_ok, Py.bind_set, this]
    rfl
  · subst hss
    have hcall : callable interp n f = .ok g := by
      unfold callable
      rw [hg]
    unfold maxpExactFitPy maxpExactFit
    rw [hf, Py.bind_lift_ok, Py.bind_set, (c17_solver_names ss).2 hs, Py.bind_lift_ok, hcall,
      Py.bind_lift_ok]
    cases maxpLp adj (fun i j => g m (attr i) (attr j)) quota with
    | raise e => rfl
    | timeout => rfl
    | ok P =>
      simp only [Py.bind_lift_ok, PyStr.get]
      rw [hc]
      rfl

end maxpexact

section
variable {n m : Nat} (adj : Adj n) (attr : Fin n → Row m) (solve : Solver (OrderVar n)) (metric : Metric)

/-- C97: with areas that are not all alike, `MaxPRegionsExact` raises exactly when the threshold is an
array with fewer entries than there are spatially extensive attributes. -/
theorem c97_short_threshold {q : Nat} (spat : Fin n → Row q) (thr : List ℚ)
    (hd : ∀ i j, 0 ≤ metric m (attr i) (attr j))
    {i j : Fin n} (hij : i < j) (hne : 0 < metric m (attr i) (attr j)) :
    (thr.length < q → maxpExactFit adj attr (.rowsArray spat thr) solve metric = .raise .indexError) ∧
    (q ≤ thr.length → ∃ L, maxpExactFit adj attr (.rowsArray spat thr) solve metric = .ok L) := by
  have hpos : ∃ i j, i < j ∧ metric m (attr i) (attr j) ≠ 0 := ⟨i, j, hij, ne_of_gt hne⟩
  refine ⟨fun hlt => ?_, fun hle => ?_⟩
  · have hsum : ¬ ((upperTriangle n).map fun e => metric m (attr e.1) (attr e.2)).sum ≤ 0 := by
      rw [sum_upperTriangle (fun e => metric m (attr e.1) (attr e.2)), not_le]
      exact Finset.sum_pos' (fun e _ => hd _ _) ⟨(i, j), by simpa using hij, hne⟩
    unfold maxpExactFit maxpLp maxpWeight
    dsimp only
    rw [if_neg hsum]
    simp only [Res.bind_ok]
    have : (Quota.rowsArray spat thr).cols = .raise .indexError := if_pos hlt
    rw [this]
    rfl
  · have : (Quota.rowsArray spat thr).cols =
        .ok ((List.finRange q).map fun el => (fun i => spat i el, thr.getD el 0)) :=
      if_neg (by omega)
    exact c58_returns_partial ⟨_, this⟩ (fun i j _ => hd i j) hpos solve

end

/-- Two spatially extensive attributes and one threshold. -/
example : maxpExactFit path4 (ramp 4) (.rowsArray (q := 2) (fun _ _ => 1) [2]) (fun _ => fun _ => some 0)
    manhattanM = .raise .indexError :=
  (c97_short_threshold path4 (ramp 4) _ manhattanM _ _ (by decide +kernel) (i := 0) (j := 1) (by decide)
    (by decide +kernel)).1 (by decide)

end Region.Props
