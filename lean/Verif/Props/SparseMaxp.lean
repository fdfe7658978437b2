import Verif.Lemmas.SparseMaxp
import Verif.Props.MaxPHeu
import Verif.Props.SparseAzp
/-
Property theorems C138: the weights of the adjacency matrix and the max-p heuristic.
-/
namespace Region.Props

open Region Spec

section
variable {n q : Nat} {ρ : Type}

/-- C138 (only for matrices without stored zeros): with every one of the four local searches the max-p
heuristic does the same as on the 0/1 matrix of the areas that border each other: the same number of
regions, labels, exceptions, state of the object and random draws, whatever the weights, on any map. -/
theorem c138_weights_partial (A : Csr n) (hz : ∀ i, ∀ e ∈ A.rows i, e.2 ≠ 0) (o : Csr.Order)
    (o' : MstOrder) (keep : Bool) (expf : ℚ → ℚ) (metric : ρ → ρ → ℚ) (obj : Objective ρ)
    (attr : Fin n → ρ) (spat : Fin n → Fin q → ℚ) (thr : Fin q → ℚ) (maxIt : Nat) (rng : Rng) :
    (∀ (fuel : Nat) (st : Strat n q),
      Csr.maxpFit (Csr.azpSearch o expf obj fuel keep A attr) metric obj A attr spat thr maxIt st rng =
        maxpFit (azpSearch o' expf obj fuel (bordering A) attr) metric obj (bordering A) attr spat thr
          maxIt st rng) ∧
    (∀ (fuel : Nat) (len : Option Nat) (reps : Int) (st : Strat n q),
      Csr.maxpFit (Csr.basicTabuSearch o expf obj fuel len reps keep A attr) metric obj A attr spat thr
          maxIt st rng =
        maxpFit (basicTabuSearch o' expf obj fuel len reps (bordering A) attr) metric obj (bordering A)
          attr spat thr maxIt st rng) ∧
    (∀ (searchIt : Nat) (k1 k2 : Int) (self : ReactSelf (Strat n q)),
      Csr.maxpFit (Csr.reactiveTabuSearch o expf obj searchIt k1 k2 keep A attr) metric obj A attr spat
          thr maxIt self rng =
        maxpFit (reactiveTabuSearch o' expf obj searchIt k1 k2 (bordering A) attr) metric obj
          (bordering A) attr spat thr maxIt self rng) ∧
    ∀ (f1 f2 f3 : Nat) (P : SaParams) (self : SaObj),
      Csr.maxpFit (Csr.saSearch o expf obj f1 f2 f3 P keep A attr) metric obj A attr spat thr maxIt self
          rng =
        maxpFit (saSearch o' expf obj f1 f2 f3 P (bordering A) attr) metric obj (bordering A) attr spat
          thr maxIt self rng := by
  have hc : A.Clean := hz
  have hl := fun p init r => c134_labels_partial (q := q) A hz o o' keep expf obj attr p init r
  refine ⟨fun fuel st => ?_, fun fuel len reps st => ?_, fun it k1 k2 self => ?_,
    fun f1 f2 f3 P self => ?_⟩ <;> rw [Csr.maxpFit_eq _ _ _ hc, ← bordering_eq] <;> congr 1
  · simp only [Csr.azpSearch, azpSearch]
    congr 1
    funext p init st r
    rw [(hl p init r).1]
  · simp only [Csr.basicTabuSearch, basicTabuSearch]
    congr 1
    funext p init st r
    rw [(hl p init r).2.1]
  · simp only [Csr.reactiveTabuSearch, reactiveTabuSearch]
    congr 1
    funext p init st r
    rw [(hl p init r).2.2.1]
  · simp only [Csr.saSearch, saSearch]
    congr 1
    funext p init st r
    rw [(hl p init r).2.2.2]

/-- C138: if indexing drops stored zeros, then with any matrix, stored zeros or not, the labels that max-p
with AZP as local search returns are a clustering into contiguous regions, as many as `max_p`. -/
theorem c138_zeros_dropped (A : Csr n) (hs : Symmetric (bordering A)) (o : Csr.Order) (expf : ℚ → ℚ)
    (metric : ρ → ρ → ℚ) {obj : Objective ρ} (he : obj.Exact) (ht : obj.Total) (attr : Fin n → ρ)
    (spat : Fin n → Fin q → ℚ) (thr : Fin q → ℚ) (maxIt fuel : Nat) (hf : n + n ^ n < fuel)
    (st st' : Strat n q) (rng rng' : Rng) (p : Nat) (L : Labels n)
    (h : Csr.maxpFit (Csr.azpSearch o expf obj fuel false A attr) metric obj A attr spat thr maxIt st rng
      = .ok (p, some L, st', rng')) : Feasible (bordering A) L p := by
  unfold Csr.maxpFit at h
  obtain ⟨⟨maxP, kept, r1⟩, _, h⟩ := Res.bind_eq_ok.1 h
  obtain ⟨⟨feasible, r2⟩, _, h⟩ := Res.bind_eq_ok.1 h
  obtain ⟨⟨best, st1, r3⟩, h3, h⟩ := Res.bind_eq_ok.1 h
  dsimp only at h3 h
  have hO := (searchOuter_keeps (Csr.azpSearch o expf obj fuel false A attr) obj attr maxP
    (O := fun L => Feasible (bordering A) L maxP) ?_ spat thr feasible feasible none st r2
    (by intro L v h; cases h)).ok h3
  · cases best with
    | none => cases h
    | some b => cases h; exact hO _ b.2 rfl
  · intro init s r L s' r' hm hfit
    obtain ⟨⟨L1, s1, r1⟩, h1, h2⟩ := Res.bind_eq_ok.1 hfit
    cases h2
    have hfe : Feasible (bordering A) init maxP := by
      unfold Csr.azpFit Csr.fitWith at h1
      obtain ⟨_, h1, _⟩ := Res.bind_eq_ok.1 h1
      rw [Csr.assertFeasible_eq (Or.inl rfl), ← bordering_eq] at h1
      have := (c04_assert_feasible_ok init (bordering A) (some maxP)).1 h1
      exact ⟨this.1, by have := this.2 maxP rfl; exact_mod_cast this⟩
    obtain ⟨labels, s2, r2, k1, k2, _⟩ := c134_zeros_dropped A hs o expf he ht attr maxP init hfe hm fuel
      hf s r
    rw [h1] at k1
    cases k1
    exact k2

end

/-- Two islands, the path 0-1-2 and the pair 3-4, with a stored zero between the areas 2 and 3. -/
def zeroBridge : Csr 5 where
  rows := ![[(1, 1)], [(0, 1), (2, 1)], [(1, 1), (3, 0)], [(2, 0), (4, 1)], [(3, 1)]]
  sorted := by decide +kernel

/-- The attributes 0, 0, 9, 9, 9 on `zeroBridge`. -/
def bridgeAttr : Fin 5 → Row 1 := ![![0], ![0], ![9], ![9], ![9]]

/-- Max-p with AZP on `zeroBridge`, with the threshold 2 on the number of areas; the first choice is always
the first possible one. -/
def bridgeRun (keep : Bool) : Res (Nat × Option (Labels 5) × Strat 5 1 × Rng) :=
  Csr.maxpFit (Csr.azpSearch Csr.Order.stable (fun _ => 0) (pairwise manhattan) 40 keep zeroBridge bridgeAttr)
    manhattan (pairwise manhattan) zeroBridge bridgeAttr (fun _ (_ : Fin 1) => 1) (fun _ => 2) 1 (.azp 0)
    (fun _ => 0)

/-- C138, not with stored zeros: assigning the enclaves takes a stored zero for a border.  On the matrix
without the stored zero max-p finds the two islands.  With the stored zero area 2 joins the areas 3 and 4,
which it does not border: if indexing drops stored zeros, `fit` then raises `ValueError`; if indexing keeps
them, `fit` returns these regions, one of them not contiguous. -/
theorem c138_stored_zero :
    (match maxpFit (azpSearch .rowMajor (fun _ => 0) (pairwise manhattan) 40 (bordering zeroBridge)
        bridgeAttr) manhattan (pairwise manhattan) (bordering zeroBridge) bridgeAttr
        (fun _ (_ : Fin 1) => 1) (fun _ => 2) 1 (.azp 0) (fun _ => 0) with
      | .ok (p, some L, _, _) => decide (p = 2 ∧ arrayList L = [0, 0, 0, 1, 1])
      | _ => false) = true ∧
    (match bridgeRun false with
      | .raise e => decide (e = .valueError "Region 1 is not spatially contiguous.")
      | _ => false) = true ∧
    ∃ L st rng, bridgeRun true = .ok (2, some L, st, rng) ∧ arrayList L = [0, 0, 1, 1, 1] ∧
      ¬ Feasible (bordering zeroBridge) L 2 := by
  refine ⟨by decide +kernel, by decide +kernel, ?_⟩
  have h : (match bridgeRun true with
    | .ok (p, some L, _, _) => decide (p = 2 ∧ arrayList L = [0, 0, 1, 1, 1]) &&
        !(assertFeasible L (bordering zeroBridge) (some 2)).isOk
    | _ => false) = true := by decide +kernel
  cases hr : bridgeRun true with
  | raise e => rw [hr] at h; cases h
  | timeout => rw [hr] at h; cases h
  | ok x =>
    obtain ⟨p, out, st, rng⟩ := x
    cases out with
    | none => rw [hr] at h; cases h
    | some L =>
      rw [hr] at h
      simp only [Bool.and_eq_true, decide_eq_true_eq, Bool.not_eq_true'] at h
      obtain ⟨⟨rfl, h1⟩, h2⟩ := h
      refine ⟨L, st, rng, rfl, h1, fun hf => ?_⟩
      rw [(c04_assert_feasible_ok L (bordering zeroBridge) (some 2)).2
        ⟨hf.1, fun q hq => by cases hq; exact_mod_cast hf.2⟩] at h2
      exact absurd h2 (by decide)

/-- The hypotheses of `c138_weights_partial` with weights that differ, and a run with an enclave. -/
example : (∀ i, ∀ e ∈ rowStandardized4.rows i, e.2 ≠ 0) ∧
    (match Csr.maxpFit (Csr.azpSearch Csr.Order.stable (fun _ => 0) (pairwise manhattan) 40 true
        rowStandardized4 (ramp 4)) manhattan (pairwise manhattan) rowStandardized4 (ramp 4)
        (fun i (_ : Fin 1) => ![1, 1, 2, 1] i) (fun _ => 2) 1 (.azp 0) (fun _ => 0) with
      | .ok (p, some L, _, _) => decide (p = 2 ∧ arrayList L = [0, 0, 1, 1])
      | _ => false) = true := by decide +kernel

/-- The hypotheses of `c138_zeros_dropped` with a stored zero: a run that returns. -/
example : Symmetric (bordering zeroStar) ∧ zeroStar.stored 0 2 = true ∧ zeroStar.value 0 2 = 0 ∧
    (match Csr.maxpFit (Csr.azpSearch Csr.Order.stable (fun _ => 0) (pairwise manhattan) 300 false
        zeroStar (ramp 4)) manhattan (pairwise manhattan) zeroStar (ramp 4)
        (fun _ (_ : Fin 1) => 1) (fun _ => 2) 1 (.azp 0) (fun _ => 0) with
      | .ok (p, some L, _, _) => decide (p = 1 ∧ arrayList L = [0, 0, 0, 0])
      | _ => false) = true := by
  refine ⟨?_, by decide +kernel, by decide +kernel, by decide +kernel⟩
  intro a b; revert a b; decide +kernel

end Region.Props
