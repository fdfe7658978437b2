import Verif.Lemmas.Layers
import Verif.Lemmas.MaxPResults
import Verif.Lemmas.RenumberMaxp
import Verif.Props.Construct
import Verif.Props.Zoning
/-
Property theorems C112: all results of the max-p heuristic.
-/
namespace Region.Props

open Region Spec

/-- What the local search makes of a clustering: on every island a single pass over the regions, in which areas
that can be spared move to neighbouring regions without raising the dissimilarities. -/
def PassedOnIslands {V Q : Type} [DecidableEq V] (adj : V → V → Bool) (d : V → V → ℚ) (spat : V → Q → ℚ)
    (thr : Q → ℚ) (init L : V → Int) : Prop :=
  ∀ u, OnePass (fun a b : Island adj u => adj a b)
    (MaxpAllows (fun a b : Island adj u => d a b) (onIsland adj u spat) thr) (onIsland adj u init)
    (onIsland adj u L)

/-- The step of the loop over the components, for the default strategy inside any number of decorators. -/
theorem layered_exactStep {n q : Nat} {ρ : Type} (expf : ℚ → ℚ) {metric : ρ → ρ → ℚ}
    (hsym : ∀ x y, metric x y = metric y x) (h0 : ∀ x, metric x x = 0) {adj : Adj n} (hs : Symmetric adj)
    (attr : Fin n → ρ) {init : Labels n} (hc : AllContiguous adj init) (hm : ∀ v, init v ≠ -1)
    (spat : Fin n → Fin q → ℚ) (thr : Fin q → ℚ) {fuel : Nat} (hf : n + n ^ n < fuel) (c : Nat)
    (hlt : c < nComponents adj) :
    ExactStep adj attr (azpComp (q := q) expf (pairwise metric) fuel)
      (fun st => st.Decorated spat thr ∧ st.isMaxp = true)
      (fun idx => OnePass (subAdj adj idx) fun L a r => Dispensable (fun i => spat (idx.get i)) thr L a ∧
        (pairwise metric).call (moved L a r) (fun i => attr (idx.get i)) ≤
          (pairwise metric).call L fun i => attr (idx.get i)) (compArray adj init c) := by
  have := exactStep_of (S := fun st => st.Decorated spat thr ∧ st.isMaxp = true)
    (value := fun idx _ => (pairwise metric).call (fun i => init (idx.get i)) fun i => attr (idx.get i))
    (M := fun idx L st => st.Layered spat thr
      ((pairwise metric).call (fun i => init (idx.get i)) fun i => attr (idx.get i))
      ((pairwise metric).call L fun i => attr (idx.get i)) ∧ st.isMaxp = true)
    expf (pairwise_exact hsym h0) (pairwise_total metric) hs hc (fun v => ⟨v, .refl, hm v⟩) attr hf
    (fun idx => layered_decides (idx := fun i => idx.get i) (pairwise_exact hsym h0) (pairwise_total metric) _ _ _ _)
    (fun _ _ _ h => layered_objVal h.1 h.2)
    (fun _ st h => ⟨h.1.start _, (Strat.isMaxp_start _ st).trans h.2⟩)
    (fun _ _ _ h => ⟨h.1.decorated, h.2⟩) c hlt
  convert this using 1
  funext idx l l'
  exact (propext (rounds_const ..)).symm

/-- C112, the local search: from a given start, however many decorators have been put around the default
strategy. -/
theorem layered_search {n q : Nat} {ρ : Type} (o : MstOrder) (expf : ℚ → ℚ) {metric : ρ → ρ → ℚ}
    (hsym : ∀ x y, metric x y = metric y x) (h0 : ∀ x, metric x x = 0) {adj : Adj n} (hs : Symmetric adj)
    (attr : Fin n → ρ) (spat : Fin n → Fin q → ℚ) (thr : Fin q → ℚ) {fuel : Nat} (hf : n + n ^ n < fuel)
    (p : Nat) :
    ExactSearch (azpSearch o expf (pairwise metric) fuel adj attr) p (StartOk adj p)
      (fun st => st.Decorated spat thr ∧ st.isMaxp = true)
      (PassedOnIslands adj (fun a b => metric (attr a) (attr b)) spat thr) := by
  constructor
  · rintro init st r out st' r' ⟨hc, hp, hm⟩ hst h
    change (azpFit o expf (pairwise metric) fuel adj attr p (some init) st r >>= _) = _ at h
    rw [Res.bind_eq_ok] at h
    obtain ⟨⟨L, st1, r1⟩, h1, h2⟩ := h
    cases h2
    obtain ⟨⟨_, h3⟩, h4⟩ := fitWith_sound o hc (by rw [hp])
      (layered_exactStep expf hsym h0 hs attr hc hm spat thr hf) hst h1
    exact ⟨L, rfl, fun u => (onePass_on_island hsym attr hm spat thr u).1 (h3 _ (compLabels_lt adj u)), h4⟩
  · rintro init st L ⟨hc, hp, hm⟩ hst h
    obtain ⟨st', h1, h2⟩ := fitWith_complete (p := (p : Int)) o hc (by rw [hp])
      (layered_exactStep expf hsym h0 hs attr hc hm spat thr hf) hst (L := L) (fun v hv => absurd hv (hm v))
      (fun c hlt => by
        obtain ⟨u, rfl⟩ := compLabels_surj adj hlt
        exact (onePass_on_island hsym attr hm spat thr u).2 (h u))
    refine ⟨st', h1, fun r' => ?_⟩
    obtain ⟨r, h2⟩ := h2 r'
    refine ⟨r, ?_⟩
    change (azpFit o expf (pairwise metric) fuel adj attr p (some init) st r >>= _) = _
    have : azpFit o expf (pairwise metric) fuel adj attr p (some init) st r = .ok (L, st', r') := h2
    rw [this, Res.bind_ok]

/-- C112: with the default local search, `MaxPRegionsHeu.fit` can end with exactly the results of the described
heuristic. -/
theorem c112_fit {n q : Nat} {ρ : Type} (o : MstOrder) (expf : ℚ → ℚ) {metric : ρ → ρ → ℚ}
    (hsym : ∀ x y, metric x y = metric y x) (h0 : ∀ x, metric x x = 0) {adj : Adj n} (hs : Symmetric adj)
    (hloop : ∀ v, adj v v = false) (attr : Fin n → ρ) (spat : Fin n → Fin q → ℚ) (thr : Fin q → ℚ)
    {maxIt : Nat} (hit : 0 < maxIt) {fuel : Nat} (hf : n + n ^ n < fuel) {st : Strat n q}
    (hst : st.Decorated spat thr) (p : Nat) (L : Labels n) :
    (∃ r st' r', maxpFit (azpSearch o expf (pairwise metric) fuel adj attr) metric (pairwise metric) adj attr
      spat thr maxIt st r = .ok (p, some L, st', r')) ↔
      MaxpResult adj (fun a b => metric (attr a) (attr b)) spat thr maxIt
        (PassedOnIslands adj (fun a b => metric (attr a) (attr b)) spat thr) p L := by
  refine maxpFit_exact (S := fun st => st.Decorated spat thr ∧ st.isMaxp = true)
    (S0 := fun st => st.Decorated spat thr) hs hloop
    (layered_search o expf hsym h0 hs attr spat thr hf) (fun st h => ⟨⟨rfl, rfl, h⟩, rfl⟩) (fun _ h => h.1)
    (fun l l' => ?_) hit hst p L
  rw [dissimilarity_fin (fun a b => hsym _ _), dissimilarity_fin (fun a b => hsym _ _)]
  change pairwiseCall metric _ _ < pairwiseCall metric _ _ ↔ _
  rw [pairwiseCall_eq, pairwiseCall_eq]
  constructor <;> intro h <;> linarith

/-- Renumbering the areas of every island. -/
theorem passedOnIslands_comp {V W Q : Type} [DecidableEq V] [DecidableEq W] (e : V ≃ W) {adj : W → W → Bool}
    {d : W → W → ℚ} {spat : W → Q → ℚ} {thr : Q → ℚ} {init L : W → Int} :
    PassedOnIslands (fun a b => adj (e a) (e b)) (fun a b => d (e a) (e b)) (fun v => spat (e v)) thr (init ∘ e)
      (L ∘ e) ↔ PassedOnIslands adj d spat thr init L := by
  have key : ∀ u, OnePass (fun a b : Island (fun a b => adj (e a) (e b)) u => adj (e a) (e b))
        (MaxpAllows (fun a b : Island (fun a b => adj (e a) (e b)) u => d (e a) (e b))
          (onIsland (fun a b => adj (e a) (e b)) u fun v => spat (e v)) thr)
        (onIsland _ u (init ∘ e)) (onIsland _ u (L ∘ e)) ↔
      OnePass (fun a b : Island adj (e u) => adj a b)
        (MaxpAllows (fun a b : Island adj (e u) => d a b) (onIsland adj (e u) spat) thr)
        (onIsland adj (e u) init) (onIsland adj (e u) L) := by
    intro u
    let f : Island (fun a b => adj (e a) (e b)) u ≃ Island adj (e u) :=
      e.subtypeEquiv fun a => sameIsland_comp e adj u a
    refine onePass_comp f (adj := fun a b => adj a b) (fun l a r => ?_) (onIsland adj (e u) init)
      (onIsland adj (e u) L)
    unfold MaxpAllows
    rw [← dispensable_comp f, ← dissimilarity_comp f, ← dissimilarity_comp f, moved_comp]
    rfl
  constructor
  · intro h u
    have := (key (e.symm u)).1 (h _)
    rwa [Equiv.apply_symm_apply] at this
  · intro h u
    exact (key u).2 (h _)

/-- C113: renumbering the areas renumbers the possible results of the max-p heuristic, and nothing else. -/
theorem c113_maxp {n q : Nat} {ρ : Type} (o : MstOrder) (expf : ℚ → ℚ) {metric : ρ → ρ → ℚ}
    (hsym : ∀ x y, metric x y = metric y x) (h0 : ∀ x, metric x x = 0) {adj : Adj n} (hs : Symmetric adj)
    (hloop : ∀ v, adj v v = false) (attr : Fin n → ρ) (spat : Fin n → Fin q → ℚ) (thr : Fin q → ℚ)
    {maxIt : Nat} (hit : 0 < maxIt) {fuel : Nat} (hf : n + n ^ n < fuel) (e : Equiv.Perm (Fin n)) (v : ℚ) (p : Nat)
    (L : Labels n) :
    (∃ r st' r', maxpFit (azpSearch o expf (pairwise metric) fuel (fun a b => adj (e a) (e b)) (attr ∘ e)) metric
      (pairwise metric) (fun a b => adj (e a) (e b)) (attr ∘ e) (spat ∘ e) thr maxIt (.azp v) r =
        .ok (p, some (L ∘ e), st', r')) ↔
    ∃ r st' r', maxpFit (azpSearch o expf (pairwise metric) fuel adj attr) metric (pairwise metric) adj attr
      spat thr maxIt (.azp v) r = .ok (p, some L, st', r') := by
  rw [c112_fit o expf hsym h0 hs hloop attr spat thr hit hf (st := .azp v) trivial,
    c112_fit o expf hsym h0 (fun a b => hs _ _) (fun v => hloop _) (attr ∘ e) (spat ∘ e) thr hit hf
      (st := .azp v) trivial]
  constructor
  · intro h
    have := maxpResult_comp e.symm (fun init M hi => (passedOnIslands_comp e.symm).2 hi) h
    simp only [Equiv.apply_symm_apply, Function.comp_apply] at this
    have hL : (L ∘ e) ∘ e.symm = L := by funext x; simp
    rwa [hL] at this
  · intro h
    exact maxpResult_comp e (fun init M hi => (passedOnIslands_comp e).2 hi) h

/-- A result on the path of five areas with the values 0, 1, 2, 3, 4, where a region needs two areas. -/
theorem c112_path : MaxpResult path5 (fun a b => manhattan (ramp 5 a) (ramp 5 b)) (fun _ (_ : Fin 1) => 1) (fun _ => 2) 2
    (PassedOnIslands path5 (fun a b => manhattan (ramp 5 a) (ramp 5 b)) (fun _ (_ : Fin 1) => 1) (fun _ => 2)) 2
    ![0, 0, 1, 1, 1] := by
  rw [← c112_fit .rowMajor (fun _ => 0) manhattan_comm manhattan_self path5_symm (by decide) (ramp 5)
    (fun _ (_ : Fin 1) => 1) (fun _ => 2) (by norm_num) (fuel := 4000) (by norm_num) (st := .azp 0) trivial]
  have : (match maxpFit (azpSearch .rowMajor (fun _ => 0) (pairwise manhattan) 4000 path5 (ramp 5))
      manhattan (pairwise manhattan) path5 (ramp 5) (fun _ (_ : Fin 1) => 1) (fun _ => 2) 2 (.azp 0)
      (fun i => i) with
    | .ok (p, some L, _, _) => some (p, L)
    | _ => none) = some (2, ![0, 0, 1, 1, 1]) := by decide +kernel
  split at this
  · next p L st' r' h =>
    cases this
    exact ⟨_, _, _, h⟩
  · cases this

/-- … and, the path being turned round, the same one read backwards. -/
example : ∃ r st' r', maxpFit (azpSearch .rowMajor (fun _ => 0) (pairwise manhattan) 4000
      (fun a b => path5 (Fin.revPerm a) (Fin.revPerm b)) (ramp 5 ∘ Fin.revPerm)) manhattan (pairwise manhattan)
      (fun a b => path5 (Fin.revPerm a) (Fin.revPerm b)) (ramp 5 ∘ Fin.revPerm)
      ((fun _ (_ : Fin 1) => 1) ∘ Fin.revPerm) (fun _ => 2) 2 (.azp 0) r =
        .ok (2, some ((![0, 0, 1, 1, 1] : Labels 5) ∘ Fin.revPerm), st', r') :=
  (c113_maxp .rowMajor (fun _ => 0) manhattan_comm manhattan_self path5_symm (by decide) (ramp 5)
    (fun _ (_ : Fin 1) => 1) (fun _ => 2) (by norm_num) (by norm_num) Fin.revPerm 0 2 _).2
    ((c112_fit .rowMajor (fun _ => 0) manhattan_comm manhattan_self path5_symm (by decide) (ramp 5)
    (fun _ (_ : Fin 1) => 1) (fun _ => 2) (by norm_num) (by norm_num) (st := .azp 0) trivial _ _).2 c112_path)

end Region.Props
