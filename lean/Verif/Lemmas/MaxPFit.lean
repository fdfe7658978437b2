import Verif.Lemmas.MaxPAssign
import Verif.Lemmas.AzpUtil
import Verif.Lemmas.AzpReact
/-
Lemmas about the local search phase and `fit` of `MaxPRegionsHeu`.
-/
namespace Region

open Spec Relation Props

/-! ### The threshold -/

theorem sum_filter_erase {k : Nat} (labels : Labels k) (f : Fin k → ℚ) (a : Fin k) (x : Int) :
    ∑ u ∈ Finset.univ.filter (fun u => labels u = x), f u =
      (if labels a = x then f a else 0) +
        ∑ u ∈ Finset.univ.erase a, if labels u = x then f u else 0 := by
  rw [Finset.sum_filter, ← Finset.add_sum_erase Finset.univ _ (Finset.mem_univ a)]

theorem sum_filter_moved {k : Nat} (labels : Labels k) (f : Fin k → ℚ) (a : Fin k) (r x : Int) :
    ∑ u ∈ Finset.univ.filter (fun u => moved labels a r u = x), f u =
      (if r = x then f a else 0) +
        ∑ u ∈ Finset.univ.erase a, if labels u = x then f u else 0 := by
  rw [sum_filter_erase (moved labels a r) f a x, moved_self]
  congr 1
  apply Finset.sum_congr rfl
  intro u hu
  rw [moved_of_ne (Finset.ne_of_mem_erase hu)]

theorem sum_whereEq {k : Nat} (labels : Labels k) (f : Fin k → ℚ) (x : Int) :
    ((whereEq labels x).map f).sum = ∑ u ∈ Finset.univ.filter (fun u => labels u = x), f u := by
  have h : (whereEq labels x).toFinset = Finset.univ.filter (fun u => labels u = x) := by
    ext u; simp [mem_whereEq]
  rw [← h, List.sum_toFinset f (whereEq_nodup labels x)]

/-- If the test of `AllowMoveAZPMaxPRegions` does not refuse a move to a region in use, the move
preserves the threshold, provided the attributes of the moving area are not negative. -/
theorem not_blocked_meets {k q : Nat} {sp : Fin k → Fin q → ℚ} {thr : Fin q → ℚ} {a : Fin k}
    {labels : Labels k} {r : Int} (hb : Strat.maxpBlocks sp thr a labels = false)
    (hr : ∃ u, labels u = r) (hpos : ∀ j, 0 ≤ sp a j) (hm : MeetsThreshold labels sp thr) :
    MeetsThreshold (moved labels a r) sp thr := by
  have hrec : ∀ j, thr j ≤ ∑ u ∈ Finset.univ.filter (fun u => moved labels a r u = r), sp u j := by
    intro j
    obtain ⟨u, hu⟩ := hr
    have h1 := hm u j
    rw [hu, sum_filter_erase labels (fun u => sp u j) a r] at h1
    rw [sum_filter_moved labels (fun u => sp u j) a r r, if_pos rfl]
    have := hpos j
    split_ifs at h1 <;> linarith
  intro v j
  by_cases hv : moved labels a r v = r
  · rw [hv]; exact hrec j
  · have hva : v ≠ a := fun h => hv (by rw [h, moved_self])
    rw [moved_of_ne hva] at hv ⊢
    have h1 := hm v j
    rw [sum_filter_erase labels (fun u => sp u j) a (labels v)] at h1
    rw [sum_filter_moved labels (fun u => sp u j) a r (labels v),
      if_neg (fun h => hv h.symm), zero_add]
    by_cases hd : labels a = labels v
    · rw [if_pos hd] at h1
      unfold Strat.maxpBlocks at hb
      split_ifs at hb with h2
      · have hb' : ∀ j, thr j ≤ ((whereEq labels (labels a)).map fun i => sp i j).sum - sp a j := by
          simpa using hb
        have h3 := hb' j
        rw [sum_whereEq labels (fun i => sp i j) (labels a),
          sum_filter_erase labels (fun u => sp u j) a (labels a), if_pos rfl, hd] at h3
        linarith
      · have h3 : sp a j = 0 := by
          by_contra hcon
          exact h2 (List.any_eq_true.2 ⟨j, List.mem_finRange j, by simpa using hcon⟩)
        linarith
    · rw [if_neg hd] at h1
      linarith

/-- The outermost object is the Max-p decorator with this attribute and threshold. -/
def Strat.HasThr {n q : Nat} (spat : Fin n → Fin q → ℚ) (thr : Fin q → ℚ) : Strat n q → Prop
  | .maxp s t _ _ => s = spat ∧ t = thr
  | _ => False

theorem Strat.HasThr.start {n q : Nat} {spat : Fin n → Fin q → ℚ} {thr : Fin q → ℚ}
    {st : Strat n q} (h : st.HasThr spat thr) (v : ℚ) : (st.start v).HasThr spat thr := by
  cases st with
  | maxp s t v' inner => exact h
  | azp v => cases h
  | sa => cases h

theorem Strat.HasThr.isMaxp {n q : Nat} {spat : Fin n → Fin q → ℚ} {thr : Fin q → ℚ}
    {st : Strat n q} (h : st.HasThr spat thr) : st.isMaxp = true := by
  cases st with
  | maxp s t v' inner => rfl
  | azp v => cases h
  | sa => cases h

/-- The answers of the decorated strategy. -/
theorem Strat.HasThr.call {n q k : Nat} {ρ : Type} {spat : Fin n → Fin q → ℚ} {thr : Fin q → ℚ}
    {st : Strat n q} (h : st.HasThr spat thr) {expf : ℚ → ℚ} {idx : Fin k → Fin n}
    {attr : Fin k → ρ} {obj : Objective ρ} {a : Fin k} {r : Int} {labels : Labels k} {rng : Rng}
    {b : Bool} {st' : Strat n q} {rng' : Rng}
    (hc : st.call expf idx attr obj a r labels rng = .ok (b, st', rng')) :
    st'.HasThr spat thr ∧
      (b = true → Strat.maxpBlocks (fun i => spat (idx i)) thr a labels = false) := by
  cases st with
  | azp v => cases h
  | sa => cases h
  | maxp s t v inner =>
    obtain ⟨rfl, rfl⟩ := h
    unfold Strat.call at hc
    generalize hbl : Strat.maxpBlocks (fun i => s (idx i)) t a labels = bl at hc
    cases bl with
    | true =>
      rw [if_pos rfl] at hc
      cases hc
      exact ⟨⟨rfl, rfl⟩, fun h => by cases h⟩
    | false =>
      rw [if_neg (by simp)] at hc
      split at hc
      · cases hc; exact ⟨⟨rfl, rfl⟩, fun _ => rfl⟩
      · cases hc
      · cases hc

section
variable {n q : Nat} {ρ : Type} {spat : Fin n → Fin q → ℚ} {thr : Fin q → ℚ}

/-- One component: the default AZP with the decorated strategy returns, keeps the regions and the
threshold. -/
theorem maxp_component (expf : ℚ → ℚ) {obj : Objective ρ} (he : obj.Exact) (ht : obj.Total)
    (hpos : ∀ v j, 0 ≤ spat v j) (idx : List (Fin n)) (hk : idx ≠ []) {adj : Adj idx.length}
    (hs : Symmetric adj) (init : Labels idx.length) (hc : AllContiguous adj init)
    (attr : Fin idx.length → ρ) (fuel : Nat)
    (hf : idx.length + numRegions init ^ idx.length < fuel) (st : Strat n q)
    (hst : st.HasThr spat thr) (rng : Rng) :
    (azpComp expf obj fuel idx adj init attr st rng).Post False False fun p =>
      (KeepsRegions adj init p.1 ∧
        (MeetsThreshold init (fun i => spat (idx.get i)) thr →
          MeetsThreshold p.1 (fun i => spat (idx.get i)) thr)) ∧ p.2.1.HasThr spat thr := by
  have hk' : 0 < idx.length := List.length_pos_iff.2 hk
  let P : Labels idx.length → Strat n q → Prop := fun L st =>
    (st.Tracks (fun l => obj.call l attr) (obj.call init attr) L ∧ st.isMaxp = true) ∧
    st.HasThr spat thr ∧ (MeetsThreshold init (fun i => spat (idx.get i)) thr →
      MeetsThreshold L (fun i => spat (idx.get i)) thr)
  have hok : StratOk (Strat.ops (q := q) expf (fun i => idx.get i) attr obj) adj P False False := by
    intro labels st a r rng h1 h2 h3
    have hbase := Strat.stratOk (q := q) expf (fun i => idx.get i) attr he ht adj
      (obj.call init attr) true labels st a r rng h1 h2 h3.1
    obtain ⟨⟨b, st', rng'⟩, hcall, hP⟩ := hbase.total
    rw [hcall]
    obtain ⟨h4, h5⟩ := h3.2.1.call hcall
    refine ⟨hP, h4, fun hi => ?_⟩
    dsimp only
    split_ifs with hb
    · obtain ⟨_, ⟨u, hu, _⟩, _⟩ := h2
      exact not_blocked_meets (h5 hb) ⟨u, hu⟩ (fun j => hpos _ j) (h3.2.2 hi)
    · exact h3.2.2 hi
  have := azpComponent_post hs hok fuel init hk' hc (st.start (obj.call init attr))
    ⟨⟨Strat.tracks_start (fun l => obj.call l attr) init st,
      (Strat.isMaxp_start _ _).trans hst.isMaxp⟩, hst.start _, fun h => h⟩
    (fun _ => obj.call init attr)
    (fun _ => ⟨hf, fun L st' h => by
      have := Strat.tracks_objVal h.1.1
      rw [h.1.2, if_pos rfl] at this
      exact this⟩) rng
  apply this.mono id id
  rintro p ⟨h1, h2, h3, _⟩
  exact ⟨⟨⟨h2, reach_image h3⟩, h1.2.2⟩, h1.2.1⟩

end

/-! ### Components and the whole map -/

theorem sum_get {n : Nat} {idx : List (Fin n)} (hnd : idx.Nodup) (f : Fin n → ℚ) :
    ∑ i : Fin idx.length, f (idx.get i) = ∑ u ∈ idx.toFinset, f u := by
  rw [List.sum_toFinset f hnd]
  conv_rhs => rw [← List.ofFn_get (l := idx)]
  rw [List.map_ofFn, List.sum_ofFn]
  rfl

/-- Sums over a region lying inside `idx`. -/
theorem region_sum_get {n : Nat} {idx : List (Fin n)} (hnd : idx.Nodup) (L : Labels n)
    (f : Fin n → ℚ) (x : Int) (hx : ∀ u, L u = x → u ∈ idx) :
    ∑ i ∈ Finset.univ.filter (fun i => L (idx.get i) = x), f (idx.get i) =
      ∑ u ∈ Finset.univ.filter (fun u => L u = x), f u := by
  rw [Finset.sum_filter, Finset.sum_filter,
    sum_get hnd (fun u => if L u = x then f u else 0)]
  apply Finset.sum_subset (Finset.subset_univ _)
  intro u _ hu
  rw [if_neg]
  intro h
  exact hu (List.mem_toFinset.2 (hx u h))

theorem meets_component {n q : Nat} {idx : List (Fin n)} (hnd : idx.Nodup) {L : Labels n}
    {spat : Fin n → Fin q → ℚ} {thr : Fin q → ℚ} (hcl : ∀ u v, L u = L v → v ∈ idx → u ∈ idx) :
    MeetsThreshold (fun i => L (idx.get i)) (fun i => spat (idx.get i)) thr ↔
      ∀ v ∈ idx, ∀ j, thr j ≤ ∑ u ∈ Finset.univ.filter (fun u => L u = L v), spat u j := by
  constructor
  · intro h v hv j
    obtain ⟨i, rfl⟩ := List.get_of_mem hv
    have := h i j
    rwa [region_sum_get hnd L (fun u => spat u j) _ (fun u hu => hcl u _ hu hv)] at this
  · intro h i j
    have hv := List.get_mem idx i
    have := h _ hv j
    rwa [← region_sum_get hnd L (fun u => spat u j) _ (fun u hu => hcl u _ hu hv)] at this

theorem sameIsland_of_label {n : Nat} {adj : Adj n} {L : Labels n} (hc : AllContiguous adj L)
    {u v : Fin n} (h : L u = L v) : SameIsland adj u v :=
  pathIn_sameIsland ((hc v).2 u h v rfl)

/-- `AZP.fit` with the decorated strategy, started from a feasible labelling without -1 meeting the
threshold. -/
theorem maxp_azpFit {n q : Nat} {ρ : Type} {spat : Fin n → Fin q → ℚ} {thr : Fin q → ℚ}
    (o : MstOrder) (expf : ℚ → ℚ) {obj : Objective ρ} (he : obj.Exact) (ht : obj.Total)
    (hpos : ∀ v j, 0 ≤ spat v j) {adj : Adj n} (hs : Symmetric adj) (attr : Fin n → ρ) (p : Int)
    (init : Labels n) (hc : AllContiguous adj init) (hp : (numRegions init : Int) = p)
    (h0 : ∀ v, init v ≠ -1) (hm : MeetsThreshold init spat thr) (fuel : Nat)
    (hf : n + n ^ n < fuel) (st : Strat n q) (hst : st.HasThr spat thr) (rng : Rng) :
    (azpFit o expf obj fuel adj attr p (some init) st rng).Post False False fun q =>
      q.2.1.HasThr spat thr ∧ AllContiguous adj q.1 ∧ (numRegions q.1 : Int) = p ∧
      MeetsThreshold q.1 spat thr := by
  have := fitWith_comp (σ := Strat n q) o (adj := adj) attr (comp := azpComp expf obj fuel)
    (S := fun st => st.HasThr spat thr)
    (Q := fun idx init out => KeepsRegions (subAdj adj idx) init out ∧
      (MeetsThreshold init (fun i => spat (idx.get i)) thr →
          MeetsThreshold out (fun i => spat (idx.get i)) thr)) (R := False) (T := False) p
    (some init) (fun _ => ⟨hc, hp, fun v => ⟨v, .refl, h0 v⟩⟩) (by
      intro idx init' st rng hnd hlen hne hcont hst
      have hne := hne id
      apply maxp_component expf he ht hpos idx hne (subAdj_symm hs idx) init' hcont _ fuel _ st hst
      have hnum : numRegions init' ≤ idx.length := by
        unfold numRegions
        exact Finset.card_image_le.trans (by simp)
      have hpow : numRegions init' ^ idx.length ≤ n ^ n := by
        have h1 : 0 < n := lt_of_lt_of_le (List.length_pos_iff.2 hne) hlen
        exact (Nat.pow_le_pow_left (hnum.trans hlen) _).trans (Nat.pow_le_pow_right h1 hlen)
      omega) st hst rng
  apply Res.Post.mono this id id
  rintro ⟨L, st', rng'⟩ ⟨h1, lab, ⟨hl1, hl2, rfl⟩, hfit⟩
  obtain ⟨g1, g2⟩ := fit_result hfit
  have hok := fitOk_of_keeps hl1 g1 (fun c hc => (g2 c hc).1)
  refine ⟨h1, hok.contiguous, by rw [Props.FitOk.numRegions_eq hok]; exact hp, ?_⟩
  have hmemc : ∀ c u, u ∈ shown (compArray adj lab c) ↔ compLabels adj u = c := by
    intro c u
    rw [mem_shown, compArray_ne]
    exact ⟨fun h => h.1, fun h => ⟨h, h0 u⟩⟩
  have hcl : ∀ (M : Labels n), AllContiguous adj M → ∀ c u v, M u = M v →
      v ∈ shown (compArray adj lab c) → u ∈ shown (compArray adj lab c) := by
    intro M hM c u v huv hv
    rw [hmemc] at hv ⊢
    rw [← hv]
    exact (compLabels_eq_iff adj _ _).2 (sameIsland_of_label hM huv)
  intro v j
  have hq := (g2 _ (compLabels_lt adj v)).2
  have hnd := shown_nodup (compArray adj lab (compLabels adj v))
  rw [meets_component hnd (hcl lab hl1 _), meets_component hnd (hcl L hok.contiguous _)] at hq
  exact hq (fun w _ j => hm w j) v ((hmemc _ v).2 rfl) j

/-! ### The construction phase -/

section
variable {n q : Nat} {ρ : Type} (metric : ρ → ρ → ℚ) (adj : Adj n) (attr : Fin n → ρ)
  (spat : Fin n → Fin q → ℚ) (thr : Fin q → ℚ)

/-- The results of `it` successive calls of `grow_regions`. -/
def growRuns : Nat → Rng → Res (List (List (List (Fin n)) × List (Fin n)) × Rng)
  | 0, r => .ok ([], r)
  | it + 1, r => do
    let (pe, r) ← growRegions metric adj attr spat thr r
    let (pes, r) ← growRuns it r
    .ok (pe :: pes, r)

/-- The largest number of regions in a list of runs. -/
def mostRegions (runs : List (List (List (Fin n)) × List (Fin n))) : Nat :=
  runs.foldr (fun pe m => max pe.1.length m) 0

theorem le_mostRegions {runs : List (List (List (Fin n)) × List (Fin n))} {pe}
    (h : pe ∈ runs) : pe.1.length ≤ mostRegions runs := by
  induction runs with
  | nil => cases h
  | cons x xs ih =>
    unfold mostRegions
    rw [List.foldr_cons]
    rcases List.mem_cons.1 h with rfl | h
    · exact le_max_left _ _
    · exact (ih h).trans (le_max_right _ _)

theorem mostRegions_append (l l' : List (List (List (Fin n)) × List (Fin n))) :
    mostRegions (l ++ l') = max (mostRegions l) (mostRegions l') := by
  unfold mostRegions
  induction l with
  | nil => simp
  | cons x xs ih => simp only [List.cons_append, List.foldr_cons]; rw [ih, max_assoc]

theorem exists_mostRegions {runs : List (List (List (Fin n)) × List (Fin n))} (h : runs ≠ []) :
    ∃ pe ∈ runs, pe.1.length = mostRegions runs := by
  induction runs with
  | nil => exact absurd rfl h
  | cons x xs ih =>
    unfold mostRegions
    rw [List.foldr_cons]
    by_cases hx : mostRegions xs ≤ x.1.length
    · exact ⟨x, by simp, (max_eq_left hx).symm⟩
    · push Not at hx
      cases hxs : xs with
      | nil => rw [hxs] at hx; simp [mostRegions] at hx
      | cons y ys =>
        obtain ⟨pe, h1, h2⟩ := ih (by rw [hxs]; simp)
        rw [← hxs]
        exact ⟨pe, by simp [h1], h2.trans (max_eq_right hx.le).symm⟩

theorem construct_spec : ∀ (it : Nat) (done : List (List (List (Fin n)) × List (Fin n))) (r : Rng),
    construct metric adj attr spat thr it (mostRegions done)
      (done.filter fun pe => decide (pe.1.length = mostRegions done)) r =
    (growRuns metric adj attr spat thr it r >>= fun (runs, r') =>
      .ok (mostRegions (done ++ runs),
        (done ++ runs).filter (fun pe => decide (pe.1.length = mostRegions (done ++ runs))), r')) := by
  intro it
  induction it with
  | zero => intro done r; unfold construct growRuns; simp
  | succ it ih =>
    intro done r
    unfold construct growRuns
    cases growRegions metric adj attr spat thr r with
    | raise e => rfl
    | timeout => rfl
    | ok x =>
      obtain ⟨pe, r'⟩ := x
      simp only [Res.bind_ok]
      have hsnoc : mostRegions (done ++ [pe]) = max (mostRegions done) pe.1.length := by
        rw [mostRegions_append]; simp [mostRegions]
      have hih := ih (done ++ [pe]) r'
      have hrhs : (do
          let x ← growRuns metric adj attr spat thr it r'
          let x ← (match x with
            | (pes, r) => (Res.ok (pe :: pes, r) :
              Res (List (List (List (Fin n)) × List (Fin n)) × Rng)))
          match x with
            | (runs, r') => Res.ok (mostRegions (done ++ runs),
              (done ++ runs).filter (fun pe => decide (pe.1.length = mostRegions (done ++ runs))),
              r')) =
          (growRuns metric adj attr spat thr it r' >>= fun (runs, r') =>
            .ok (mostRegions (done ++ [pe] ++ runs),
              (done ++ [pe] ++ runs).filter
                (fun p => decide (p.1.length = mostRegions (done ++ [pe] ++ runs))), r')) := by
        cases growRuns metric adj attr spat thr it r' with
        | raise e => rfl
        | timeout => rfl
        | ok y => simp
      have hlhs : (if mostRegions done < pe.1.length then
            construct metric adj attr spat thr it pe.1.length [pe] r'
          else if pe.1.length = mostRegions done then
            construct metric adj attr spat thr it (mostRegions done)
              (done.filter (fun pe => decide (pe.1.length = mostRegions done)) ++ [pe]) r'
          else construct metric adj attr spat thr it (mostRegions done)
              (done.filter (fun pe => decide (pe.1.length = mostRegions done))) r') =
          construct metric adj attr spat thr it (mostRegions (done ++ [pe]))
            ((done ++ [pe]).filter
              fun p => decide (p.1.length = mostRegions (done ++ [pe]))) r' := by
        rw [hsnoc]
        split_ifs with h1 h2
        · rw [max_eq_right h1.le, List.filter_append]
          have : (done.filter fun p => decide (p.1.length = pe.1.length)) = [] := by
            rw [List.filter_eq_nil_iff]
            intro x hx
            have := le_mostRegions hx
            simp only [decide_eq_true_eq]
            omega
          rw [this]
          simp
        · rw [h2, max_self, List.filter_append]
          simp [h2]
        · rw [max_eq_left (by omega), List.filter_append]
          simp [h2]
      rw [hlhs, hih, ← hrhs]
      cases growRuns metric adj attr spat thr it r' <;> rfl

theorem growRuns_post_loops {R : Prop} (hs : Symmetric adj) (hloop : ¬ R → ∀ v, adj v v = false) :
    ∀ (it : Nat) (r : Rng), (growRuns metric adj attr spat thr it r).Post R False fun p =>
      p.1.length = it ∧ ∀ pe ∈ p.1, ∃ A, GrowInv adj spat thr pe.1 pe.2 [] A := by
  intro it
  induction it with
  | zero => intro r; exact ⟨rfl, fun _ h => by cases h⟩
  | succ it ih =>
    intro r
    unfold growRuns
    refine Res.Post.bind (Q := fun p => ∃ A, GrowInv adj spat thr p.1.1 p.1.2 [] A)
      (growLoop_post_loops metric adj attr spat thr hs hloop n [] [] (List.finRange n) [] r
        ⟨by simp, by simp, (fun _ h => by cases h), (fun _ _ _ h => by cases h),
          (fun _ h => by cases h)⟩ (by simp)) ?_
    rintro ⟨pe, r'⟩ _ hpe
    refine Res.Post.bind (ih r') ?_
    rintro ⟨pes, r''⟩ _ ⟨h1, h2⟩
    refine ⟨by dsimp only; rw [List.length_cons, h1], ?_⟩
    intro x hx
    rcases List.mem_cons.1 hx with rfl | hx
    · exact hpe
    · exact h2 x hx

theorem growRuns_post (hs : Symmetric adj) (hloop : ∀ v, adj v v = false) (it : Nat) (r : Rng) :
    (growRuns metric adj attr spat thr it r).Post False False fun p =>
      p.1.length = it ∧ ∀ pe ∈ p.1, ∃ A, GrowInv adj spat thr pe.1 pe.2 [] A :=
  growRuns_post_loops metric adj attr spat thr hs (fun _ => hloop) it r

/-- Every enclave lies on an island with a region, if the islands' totals reach the threshold. -/
theorem enclaves_reached (hs : Symmetric adj) {P : List (List (Fin n))} {E A : List (Fin n)}
    (hi : GrowInv adj spat thr P E [] A)
    (htot : ∀ v (C : List (Fin n)), C.Nodup → (∀ u, u ∈ C ↔ SameIsland adj v u) →
      ∀ j, thr j ≤ colSum spat C j) :
    ∀ e, ∃ u ∈ P.flatten, SameIsland adj e u := by
  intro e
  have he : e ∈ P.flatten ∨ e ∈ E := by
    have := hi.perm.mem_iff.2 (List.mem_finRange e)
    simpa using this
  rcases he with he | he
  · exact ⟨e, he, .refl⟩
  · obtain ⟨C, h1, h2, _, h4, h5, h6⟩ := hi.enclave e he
    by_contra hcon
    push Not at hcon
    have hsub : ∀ u ∈ C, SameIsland adj e u := fun u hu =>
      pathIn_sameIsland (h4.2 e h1 u hu)
    apply h5
    apply htot e C h2
    intro u
    constructor
    · exact hsub u
    · intro hu
      by_contra hcon'
      obtain ⟨x, y, hx, hy, hxy⟩ := path_leaves (S := fun v => v ∈ C) hu h1 hcon'
      rcases h6 x hx y ((borders_iff hs).1 hxy) with h | h
      · exact hcon y h ((hsub x hx).tail hxy)
      · exact hy h

theorem assignAll_post (hs : Symmetric adj) {G : List (Fin n) → Prop}
    (hG : ∀ reg a, G reg → G (reg ++ [a])) {R : Prop} :
    ∀ (kept : List (List (List (Fin n)) × List (Fin n))) (r : Rng),
      (∀ pe ∈ kept, Partial adj G pe.1 pe.2 ∧
        (¬ R → ∀ e, ∃ u ∈ pe.1.flatten, SameIsland adj e u)) →
      (assignAll metric adj attr kept r).Post R False fun p =>
        List.Forall₂ (fun pe P => Partial adj G P [] ∧ Extends pe.1 P) kept p.1 := by
  intro kept
  induction kept with
  | nil => intro r _; exact .nil
  | cons pe rest ih =>
    intro r h
    unfold assignAll
    obtain ⟨h1, h2⟩ := h pe (by simp)
    refine Res.Post.bind (assignLoop_post metric adj attr hs hG pe.2.length pe.1 pe.2 r h1 le_rfl h2)
      ?_
    rintro ⟨P, r'⟩ _ hP
    refine Res.Post.bind (ih r' fun x hx => h x (by simp [hx])) ?_
    rintro ⟨Ps, r''⟩ _ hPs
    exact .cons hP hPs

end

/-! ### The search phase -/

/-- The initial labelling made from a complete partition. -/
theorem labels_of_complete {n q : Nat} {adj : Adj n} {spat : Fin n → Fin q → ℚ} {thr : Fin q → ℚ}
    {G : List (Fin n) → Prop} {P : List (List (Fin n))} (hP : Partial adj G P [])
    (hG : ∀ reg, G reg → ∀ j, thr j ≤ colSum spat reg j) :
    ∃ L : Labels n, labelsOfPartition P = .ok L ∧ AllContiguous adj L ∧ (∀ v, L v ≠ -1) ∧
      numRegions L = P.length ∧ MeetsThreshold L spat thr := by
  have hperm : P.flatten.Perm (List.finRange n) := by simpa using hP.perm
  obtain ⟨L, h1, h2⟩ := labelsOfPartition_spec hperm
  refine ⟨L, h1, ?_, ?_, ?_, ?_⟩
  · intro v
    obtain ⟨i, hi, _, h3⟩ := h2 v
    have : regionOf L (L v) = {u | u ∈ P[i]} := by
      ext u; exact h3 u
    rw [this]
    exact hP.contiguous _ (List.getElem_mem _)
  · intro v h
    obtain ⟨i, hi, h3, _⟩ := h2 v
    rw [h3] at h
    omega
  · unfold numRegions
    have : Finset.univ.image L = (Finset.range P.length).image (fun i : Nat => (i : Int)) := by
      ext x
      simp only [Finset.mem_image, Finset.mem_univ, true_and, Finset.mem_range]
      constructor
      · rintro ⟨v, rfl⟩
        obtain ⟨i, hi, h3, _⟩ := h2 v
        exact ⟨i, hi, h3.symm⟩
      · rintro ⟨i, hi, rfl⟩
        obtain ⟨v, hv⟩ := (hP.contiguous _ (List.getElem_mem hi)).1
        have hv : v ∈ P[i] := hv
        obtain ⟨k, hk, h3, h4⟩ := h2 v
        have hvk : v ∈ P[k] := (h4 v).1 rfl
        refine ⟨v, ?_⟩
        rw [h3]
        by_contra hcon
        have hik : i ≠ k := fun h => hcon (by rw [h])
        have hnd : P.flatten.Nodup := hperm.nodup_iff.2 (List.nodup_finRange n)
        rw [List.nodup_flatten] at hnd
        rcases Nat.lt_or_gt_of_ne hik with h | h
        · exact (List.pairwise_iff_getElem.1 hnd.2 i k hi hk h) hv hvk
        · exact (List.pairwise_iff_getElem.1 hnd.2 k i hk hi h) hvk hv
    rw [this, Finset.card_image_of_injective _ (fun a b h => by exact_mod_cast h),
      Finset.card_range]
  · intro v j
    obtain ⟨i, hi, _, h3⟩ := h2 v
    have h4 := hG _ (hP.good _ (List.getElem_mem hi)) j
    have hnd : (P[i]).Nodup := by
      have hnd : P.flatten.Nodup := hperm.nodup_iff.2 (List.nodup_finRange n)
      exact (List.nodup_flatten.1 hnd).1 _ (List.getElem_mem _)
    unfold colSum at h4
    rw [← List.sum_toFinset (fun v => spat v j) hnd] at h4
    have : (P[i]).toFinset = Finset.univ.filter (fun u => L u = L v) := by
      ext u; simp [h3 u]
    rwa [this] at h4

section
variable {ς : Type} {n q : Nat} {ρ : Type} (ls : LocalSearch ς n q) (obj : Objective ρ)
  (attr : Fin n → ρ) (maxP : Nat) {R T : Prop} {S : ς → Prop} {I O : Labels n → Prop}

theorem searchInner_post
    (hfit : ∀ init st r, I init → S st → (ls.fit maxP init st r).Post R T fun p =>
      (∃ L, p.1 = some L ∧ O L) ∧ S p.2.1) :
    ∀ (ps : List (List (List (Fin n)))) (best : Option (Labels n × ℚ)) (st : ς) (r : Rng),
      (∀ P ∈ ps, ∃ L, labelsOfPartition P = .ok L ∧ I L) → S st →
      (∀ L v, best = some (L, v) → O L ∧ v = obj.call L attr) →
      (searchInner ls obj attr maxP ps best st r).Post R T fun p =>
        S p.2.1 ∧ (∀ L v, p.1 = some (L, v) → O L ∧ v = obj.call L attr) ∧
        (ps ≠ [] ∨ best ≠ none → p.1 ≠ none) := by
  intro ps
  induction ps with
  | nil =>
    intro best st r _ hst hb
    exact ⟨hst, hb, fun h => h.elim (fun h => absurd rfl h) id⟩
  | cons P ps ih =>
    intro best st r hps hst hb
    unfold searchInner
    obtain ⟨L0, h1, h2⟩ := hps P (by simp)
    rw [h1, Res.bind_ok]
    refine Res.Post.bind (hfit L0 st r h2 hst) ?_
    rintro ⟨out, st', r'⟩ _ ⟨⟨L, hL, hO⟩, hS⟩
    dsimp only at hL hS
    subst hL
    dsimp only
    apply (ih _ st' r' (fun P hP => hps P (by simp [hP])) hS ?_).mono id id
    · rintro p ⟨g1, g2, g3⟩
      refine ⟨g1, g2, fun _ => g3 (Or.inr ?_)⟩
      cases best with
      | none => simp
      | some b => dsimp only; split_ifs <;> simp
    · intro L' v' he
      cases best with
      | none => cases he; exact ⟨hO, rfl⟩
      | some b =>
        dsimp only at he
        split_ifs at he
        · cases he; exact ⟨hO, rfl⟩
        · cases he; exact hb _ _ rfl

theorem searchOuter_post {S0 : ς → Prop} (spat : Fin n → Fin q → ℚ) (thr : Fin q → ℚ)
    (hwrap : ∀ st, S0 st → S (ls.wrap spat thr st)) (hS : ∀ st, S st → S0 st)
    (hfit : ∀ init st r, I init → S st → (ls.fit maxP init st r).Post R T fun p =>
      (∃ L, p.1 = some L ∧ O L) ∧ S p.2.1)
    (feasible : List (List (List (Fin n))))
    (hfe : ∀ P ∈ feasible, ∃ L, labelsOfPartition P = .ok L ∧ I L) :
    ∀ (rounds : List (List (List (Fin n)))) (best : Option (Labels n × ℚ)) (st : ς) (r : Rng),
      S0 st → (∀ L v, best = some (L, v) → O L ∧ v = obj.call L attr) →
      (searchOuter ls obj attr maxP spat thr feasible rounds best st r).Post R T fun p =>
        S0 p.2.1 ∧ (∀ L v, p.1 = some (L, v) → O L ∧ v = obj.call L attr) ∧
        ((rounds ≠ [] ∧ feasible ≠ []) ∨ best ≠ none → p.1 ≠ none) := by
  intro rounds
  induction rounds with
  | nil =>
    intro best st r hst hb
    exact ⟨hst, hb, fun h => h.elim (fun h => absurd rfl h.1) id⟩
  | cons x rounds ih =>
    intro best st r hst hb
    unfold searchOuter
    refine Res.Post.bind (searchInner_post ls obj attr maxP hfit feasible best _ r hfe
      (hwrap st hst) hb) ?_
    rintro ⟨best', st', r'⟩ _ ⟨g1, g2, g3⟩
    dsimp only at g1 g2 g3 ⊢
    apply (ih best' st' r' (hS _ g1) g2).mono id id
    rintro p ⟨k1, k2, k3⟩
    refine ⟨k1, k2, fun h => k3 (Or.inr (g3 ?_))⟩
    rcases h with h | h
    · exact Or.inl h.2
    · exact Or.inr h

/-- The whole of `fit`, for a local search whose calls turn `I`-labellings into `O`-labellings; only
the number of regions of this run matters. -/
theorem maxpFit_post_loops {S0 : ς → Prop} (metric : ρ → ρ → ℚ) {adj : Adj n} (hs : Symmetric adj)
    (hloop : ¬ R → ∀ v, adj v v = false) (spat : Fin n → Fin q → ℚ) (thr : Fin q → ℚ)
    (hpos : ∀ v j, 0 ≤ spat v j)
    (htot : ¬ R → ∀ v (C : List (Fin n)), C.Nodup → (∀ u, u ∈ C ↔ SameIsland adj v u) →
      ∀ j, thr j ≤ colSum spat C j)
    (hwrap : ∀ st, S0 st → S (ls.wrap spat thr st)) (hS : ∀ st, S st → S0 st)
    {O : Nat → Labels n → Prop} (maxIt : Nat) (st : ς) (hst : S0 st) (r : Rng)
    (hfit : ∀ (p : Nat) init st r1,
      (∃ runs r', growRuns metric adj attr spat thr maxIt r = .ok (runs, r') ∧
        p = mostRegions runs) →
      AllContiguous adj init → (∀ v, init v ≠ -1) →
      numRegions init = p → MeetsThreshold init spat thr → S st →
      (ls.fit p init st r1).Post R T fun q => (∃ L, q.1 = some L ∧ O p L) ∧ S q.2.1) :
    (maxpFit ls metric obj adj attr spat thr maxIt st r).Post R T fun p =>
      (∃ runs r', growRuns metric adj attr spat thr maxIt r = .ok (runs, r') ∧
        p.1 = mostRegions runs) ∧
      (∀ L, p.2.1 = some L → O p.1 L) ∧ (0 < maxIt → p.2.1 ≠ none) ∧ S0 p.2.2.1 := by
  unfold maxpFit
  have hcon := construct_spec metric adj attr spat thr maxIt [] r
  have hruns := growRuns_post_loops metric adj attr spat thr hs hloop maxIt r
  change construct metric adj attr spat thr maxIt 0 [] r = _ at hcon
  rw [hcon]
  cases hr : growRuns metric adj attr spat thr maxIt r with
  | raise e => rw [hr] at hruns; exact hruns
  | timeout => rw [hr] at hruns; exact hruns.elim
  | ok x =>
  obtain ⟨runs, r'⟩ := x
  obtain ⟨hlen, hinv⟩ := hruns.ok hr
  clear hcon hruns
  rw [Res.bind_ok]
  simp only [List.nil_append]
  rw [Res.bind_ok]
  dsimp only
  generalize hkept : (runs.filter fun pe => decide (pe.1.length = mostRegions runs)) = kept
  have hk : ∀ pe ∈ kept, pe ∈ runs ∧ pe.1.length = mostRegions runs := by
    intro pe hpe
    rw [← hkept, List.mem_filter] at hpe
    exact ⟨hpe.1, by simpa using hpe.2⟩
  have hpart : ∀ pe ∈ kept, Partial adj (fun reg => ∀ j, thr j ≤ colSum spat reg j) pe.1 pe.2 ∧
      (¬ R → ∀ e, ∃ u ∈ pe.1.flatten, SameIsland adj e u) := by
    intro pe hpe
    obtain ⟨A, hA⟩ := hinv pe (hk pe hpe).1
    exact ⟨⟨by simpa using hA.perm, fun reg h => (hA.good reg h).1, fun reg h => (hA.good reg h).2⟩,
      fun h => enclaves_reached adj spat thr hs hA (htot h)⟩
  have hG : ∀ (reg : List (Fin n)) (a : Fin n), (∀ j, thr j ≤ colSum spat reg j) →
      ∀ j, thr j ≤ colSum spat (reg ++ [a]) j := by
    intro reg a h j
    have h1 := h j
    have h2 := hpos a j
    unfold colSum at h1 ⊢
    rw [List.map_append, List.sum_append]
    simp only [List.map_cons, List.map_nil, List.sum_cons, List.sum_nil, add_zero]
    linarith
  refine Res.Post.bind ((assignAll_post metric adj attr hs hG kept r' hpart).mono id
    (fun h => h.elim) fun _ h => h) ?_
  rintro ⟨feasible, r''⟩ heq hfe
  clear heq
  dsimp only at hfe ⊢
  have hfe' : ∀ P ∈ feasible, ∃ L, labelsOfPartition P = .ok L ∧ AllContiguous adj L ∧
      (∀ v, L v ≠ -1) ∧ numRegions L = mostRegions runs ∧ MeetsThreshold L spat thr := by
    intro P hP
    have : ∃ pe ∈ kept, Partial adj (fun reg => ∀ j, thr j ≤ colSum spat reg j) P [] ∧
        Extends pe.1 P := by
      clear hpart hk hkept
      induction hfe with
      | nil => cases hP
      | cons h _ ih =>
        rcases List.mem_cons.1 hP with rfl | hP
        · exact ⟨_, by simp, h⟩
        · obtain ⟨pe, h1, h2⟩ := ih hP
          exact ⟨pe, by simp [h1], h2⟩
    obtain ⟨pe, hpe, h1, h2⟩ := this
    obtain ⟨L, g1, g2, g3, g4, g5⟩ := labels_of_complete h1 (fun _ h => h)
    exact ⟨L, g1, g2, g3, by rw [g4, h2.1]; exact (hk pe hpe).2, g5⟩
  refine Res.Post.bind (searchOuter_post ls obj attr (mostRegions runs) (R := R) (T := T) (S := S)
    (S0 := S0) (I := fun L => AllContiguous adj L ∧ (∀ v, L v ≠ -1) ∧
      numRegions L = mostRegions runs ∧ MeetsThreshold L spat thr) (O := O (mostRegions runs))
    spat thr hwrap hS
    (fun init st r hI hst => hfit _ init st r ⟨runs, r', hr, rfl⟩ hI.1 hI.2.1 hI.2.2.1 hI.2.2.2 hst) feasible hfe'
    feasible none st r'' hst (fun _ _ h => by cases h)) ?_
  rintro ⟨best, st', r3⟩ _ ⟨g1, g2, g3⟩
  dsimp only at g1 g2 g3 ⊢
  refine ⟨⟨runs, r', rfl, rfl⟩, ?_, ?_, g1⟩
  · intro L hL
    cases best with
    | none => cases hL
    | some b =>
      cases hL
      exact (g2 b.1 b.2 rfl).1
  · intro hm
    have hne : runs ≠ [] := fun h => by rw [h] at hlen; simp at hlen; omega
    obtain ⟨pe, hp1, hp2⟩ := exists_mostRegions hne
    have hkne : kept ≠ [] := by
      apply List.ne_nil_of_mem (a := pe)
      rw [← hkept, List.mem_filter]
      exact ⟨hp1, by simpa using hp2⟩
    have hfne : feasible ≠ [] := by
      intro h
      rw [h] at hfe
      cases hfe
      exact hkne rfl
    have := g3 (Or.inl ⟨hfne, hfne⟩)
    cases best with
    | none => exact absurd rfl this
    | some b => simp

/-- The same without areas that are their own neighbors. -/
theorem maxpFit_post_of {S0 : ς → Prop} (metric : ρ → ρ → ℚ) {adj : Adj n} (hs : Symmetric adj)
    (hloop : ∀ v, adj v v = false) (spat : Fin n → Fin q → ℚ) (thr : Fin q → ℚ)
    (hpos : ∀ v j, 0 ≤ spat v j)
    (htot : ¬ R → ∀ v (C : List (Fin n)), C.Nodup → (∀ u, u ∈ C ↔ SameIsland adj v u) →
      ∀ j, thr j ≤ colSum spat C j)
    (hwrap : ∀ st, S0 st → S (ls.wrap spat thr st)) (hS : ∀ st, S st → S0 st)
    {O : Nat → Labels n → Prop} (maxIt : Nat) (st : ς) (hst : S0 st) (r : Rng)
    (hfit : ∀ (p : Nat) init st r1,
      (∃ runs r', growRuns metric adj attr spat thr maxIt r = .ok (runs, r') ∧
        p = mostRegions runs) →
      AllContiguous adj init → (∀ v, init v ≠ -1) →
      numRegions init = p → MeetsThreshold init spat thr → S st →
      (ls.fit p init st r1).Post R T fun q => (∃ L, q.1 = some L ∧ O p L) ∧ S q.2.1) :
    (maxpFit ls metric obj adj attr spat thr maxIt st r).Post R T fun p =>
      (∃ runs r', growRuns metric adj attr spat thr maxIt r = .ok (runs, r') ∧
        p.1 = mostRegions runs) ∧
      (∀ L, p.2.1 = some L → O p.1 L) ∧ (0 < maxIt → p.2.1 ≠ none) ∧ S0 p.2.2.1 :=
  maxpFit_post_loops ls obj attr metric hs (fun _ => hloop) spat thr hpos htot hwrap hS maxIt st hst r hfit

/-- The whole of `fit`, for a local search whose calls turn `I`-labellings into `O`-labellings. -/
theorem maxpFit_post {S0 : ς → Prop} (metric : ρ → ρ → ℚ) {adj : Adj n} (hs : Symmetric adj)
    (hloop : ∀ v, adj v v = false) (spat : Fin n → Fin q → ℚ) (thr : Fin q → ℚ)
    (hpos : ∀ v j, 0 ≤ spat v j)
    (htot : ¬ R → ∀ v (C : List (Fin n)), C.Nodup → (∀ u, u ∈ C ↔ SameIsland adj v u) →
      ∀ j, thr j ≤ colSum spat C j)
    (hwrap : ∀ st, S0 st → S (ls.wrap spat thr st)) (hS : ∀ st, S st → S0 st)
    {O : Nat → Labels n → Prop}
    (hfit : ∀ (p : Nat) init st r, AllContiguous adj init → (∀ v, init v ≠ -1) →
      numRegions init = p → MeetsThreshold init spat thr → S st →
      (ls.fit p init st r).Post R T fun q => (∃ L, q.1 = some L ∧ O p L) ∧ S q.2.1)
    (maxIt : Nat) (st : ς) (hst : S0 st) (r : Rng) :
    (maxpFit ls metric obj adj attr spat thr maxIt st r).Post R T fun p =>
      (∃ runs r', growRuns metric adj attr spat thr maxIt r = .ok (runs, r') ∧
        p.1 = mostRegions runs) ∧
      (∀ L, p.2.1 = some L → O p.1 L) ∧ (0 < maxIt → p.2.1 ≠ none) ∧ S0 p.2.2.1 :=
  maxpFit_post_of ls obj attr metric hs hloop spat thr hpos htot hwrap hS maxIt st hst r
    fun p init st r1 _ => hfit p init st r1

end

end Region
