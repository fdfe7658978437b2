import Mathlib.Tactic.FinCases
import Verif.Lemmas.AzpReact
import Verif.Lemmas.StarLoop
import Verif.Props.AzpOpt
/-
Property theorems C33-C39 and C67-C69: the tabu versions of the AZP.
-/
namespace Region.Props

open Region Spec Relation

/-! ### C33 -/

/-- C33: `_make_move` never raises; either it performs the move and all regions are contiguous
afterwards, or it leaves the labels as they were, and then the move would have broken contiguity.  In
both cases exactly the reverse move is appended to the tabu list; only the oldest entries are dropped,
and only as many as the maximal length demands. -/
theorem c33_make_move {k : Nat} {adj : Adj k} {labels : Labels k} (hc : AllContiguous adj labels)
    (a : Fin k) (r : Int) (t : Tabu k) :
    ∃ made labels' t', tabuMakeMove adj a r labels t = .ok (made, labels', t') ∧
      (made = true ∧ labels' = moved labels a r ∧ AllContiguous adj labels' ∨
        made = false ∧ labels' = labels ∧ ¬ AllContiguous adj (moved labels a r)) ∧
      t'.maxlen = t.maxlen ∧
      (t.maxlen = none → t'.items = t.items ++ [⟨a, r, labels a⟩]) ∧
      (∀ L, t.maxlen = some L → t.items.length ≤ L →
        t'.items.length = min L (t.items.length + 1) ∧
        ∃ dropped, t.items ++ [⟨a, r, labels a⟩] = dropped ++ t'.items) := by
  obtain ⟨b, L', h1, h2, h3, h4, h5⟩ := tabuMakeMove_spec a r hc t
  refine ⟨b, L', _, h1, ?_, Tabu.append_maxlen _ _, ?_, ?_⟩
  · cases b with
    | true => exact .inl ⟨rfl, h3 rfl, h5⟩
    | false =>
      refine .inr ⟨rfl, h4 rfl, fun h => ?_⟩
      have := h2.2 h
      cases this
  · intro h
    unfold Tabu.append
    rw [h]
  · intro L hL hlen
    unfold Tabu.append
    rw [hL]
    dsimp only
    refine ⟨?_, (t.items ++ [(⟨a, r, labels a⟩ : Move k)]).take (t.items.length + 1 - L), ?_⟩
    · simp only [List.length_drop, List.length_append, List.length_singleton]
      omega
    · rw [List.take_append_drop]

/-- A path of five areas. -/
def path5 : Adj 5 := fun i j => decide (i.val + 1 = j.val ∨ j.val + 1 = i.val)

theorem path5_symm : Symmetric path5 := by unfold Spec.Symmetric; decide +kernel

theorem path4_cont : AllContiguous path4 (![0, 0, 1, 1] : Labels 4) :=
  ((c04_assert_feasible_ok ![0, 0, 1, 1] path4 none).1 (by decide +kernel)).1

example : AllContiguous path4 (![0, 0, 1, 1] : Labels 4) ∧
    (match tabuMakeMove path4 1 1 ![0, 0, 1, 1] ⟨[], some 1⟩ with
      | .ok (b, L, t) => (b, arrayList L, t.items)
      | _ => (false, [], [])) = (true, [0, 1, 1, 1], [⟨1, 1, 0⟩]) ∧
    (match tabuMakeMove path4 0 1 ![0, 0, 1, 1] ⟨[], some 1⟩ with
      | .ok (b, L, t) => (b, arrayList L, t.items)
      | _ => (true, [], [])) = (false, [0, 0, 1, 1], [⟨0, 1, 0⟩]) :=
  ⟨path4_cont, by decide +kernel, by decide +kernel⟩

/-! ### C35 -/

/-- C35: the search for the best move returns normally; it answers `None` exactly if every admissible
move is tabu, and otherwise an admissible move that is not tabu and has the smallest difference of all
of them. -/
theorem c35_best_move {k : Nat} {ρ : Type} {obj : Objective ρ} (ht : obj.Total) {adj : Adj k}
    (hs : Symmetric adj) (labels : Labels k) (attr : Fin k → ρ) (t : Tabu k) :
    ∃ best, bestMove obj attr labels (possibleMoves adj labels t) 0 none = .ok best ∧
      (best = none ↔ ∀ a r, Admissible adj labels a r → ⟨a, labels a, r⟩ ∈ t.items) ∧
      ∀ i m d, best = some (i, m, d) →
        Admissible adj labels m.area m.new ∧ m.old = labels m.area ∧ m ∉ t.items ∧
        obj.update m.area m.new labels attr = some d ∧
        ∀ a r d', Admissible adj labels a r → ⟨a, labels a, r⟩ ∉ t.items →
          obj.update a r labels attr = some d' → d ≤ d' := by
  have hupd : ∀ m ∈ possibleMoves adj labels t,
      ∃ d, obj.update m.area m.new labels attr = some d := by
    intro m hm
    obtain ⟨_, ⟨_, ⟨u, hu, _⟩, hb, _⟩, _⟩ := possibleMoves_admissible hm
    exact ht _ _ _ _ ⟨u, hu⟩ hb
  obtain ⟨best, h1, h2⟩ := (bestMove_post hupd 0 none).total
  refine ⟨best, h1, ?_, ?_⟩
  · rcases best with _ | ⟨j, m, d⟩
    · refine ⟨fun _ a r hm => ?_, fun _ => rfl⟩
      by_contra hcon
      have : (⟨a, labels a, r⟩ : Move k) ∈ possibleMoves adj labels t :=
        (mem_possibleMoves hs).2 ⟨rfl, hm, hcon⟩
      rw [h2.2] at this
      cases this
    · refine ⟨(fun h => by cases h), fun h => ?_⟩
      obtain ⟨_, hjm, _⟩ := h2.1.resolve_left (by simp)
      obtain ⟨ho, hm, hnt⟩ := possibleMoves_admissible (List.mem_of_getElem? hjm)
      exact absurd (by rw [show m = ⟨m.area, labels m.area, m.new⟩ by rw [← ho]]; exact h _ _ hm)
        hnt
  · rintro i m d rfl
    obtain ⟨_, hjm, hd⟩ := h2.1.resolve_left (by simp)
    obtain ⟨ho, hm, hnt⟩ := possibleMoves_admissible (List.mem_of_getElem? hjm)
    exact ⟨hm, ho, hnt, hd, fun a r d' ha hn hd' =>
      h2.2.1 ⟨a, labels a, r⟩ ((mem_possibleMoves hs).2 ⟨rfl, ha, hn⟩) d' hd'⟩

example : (pairwise (manhattan (m := 1))).Total ∧ Symmetric path4 ∧
    (match bestMove (pairwise manhattan) (ramp 4) ![0, 0, 0, 1]
        (possibleMoves path4 ![0, 0, 0, 1] ⟨[], none⟩) 0 none with
      | .ok (some (_, m, d)) => some (m, d)
      | _ => none) = some (⟨2, 0, 1⟩, -2) :=
  ⟨pairwise_total _, path4_symm, by decide +kernel⟩

/-! ### C34, C36 -/

/-- A dissimilarity. -/
structure Dissimilarity {ρ : Type} (metric : ρ → ρ → ℚ) : Prop where
  nonneg : ∀ x y, 0 ≤ metric x y
  symm : ∀ x y, metric x y = metric y x
  zero : ∀ x, metric x x = 0

theorem manhattan_dissimilarity {m : Nat} : Dissimilarity (manhattan (m := m)) := by
  refine ⟨fun x y => ?_, fun x y => ?_, fun x => ?_⟩
  · apply List.sum_nonneg
    intro v hv
    obtain ⟨i, _, rfl⟩ := List.mem_map.1 hv
    exact abs_nonneg _
  · unfold manhattan
    simp only [abs_sub_comm]
  · unfold manhattan
    simp

/-- A routine for a component (see C34): what it needs and what it gives. -/
theorem basicComponent_post {n q : Nat} {ρ : Type} (expf : ℚ → ℚ) {metric : ρ → ρ → ℚ}
    (hd : Dissimilarity metric) {k : Nat} (idx : Fin k → Fin n) {adj : Adj k}
    {init : Labels k} (hc : AllContiguous adj init) (attr : Fin k → ρ) (len : Option Nat)
    (reps : Int) (fuel : Nat) (T : Prop)
    (hT : ¬ T → NoTies init (pairwise metric) attr ∧
      numRegions init ^ k * (reps.toNat + 1) < fuel)
    {st : Strat n q} (hst : ∃ v, st = .azp v) (rng : Rng) :
    (basicComponent (Strat.ops (q := q) expf idx attr (pairwise metric)) (pairwise metric) attr adj
      len reps fuel init st rng).Post False T fun p =>
        (∃ v, p.2.1 = .azp v) ∧ KeepsRegions adj init p.1 ∧
        ReflTransGen (LowerMove adj (pairwise metric) attr) init p.1 := by
  unfold basicComponent
  split_ifs with h1
  · exact ⟨hst, ⟨hc, fun _ => Iff.rfl⟩, .refl⟩
  · refine (basicLoop_post (P := fun st => ∃ v, st = .azp v) hd.nonneg hd.symm hd.zero
      (azp_nonWorsening expf idx attr _) reps T fuel _ ⟨hc, fun _ => Iff.rfl, by simp, hst⟩ ?_).bind ?_
    · intro hnT
      obtain ⟨h2, h3⟩ := hT hnT
      refine ⟨h2, ?_⟩
      have hr := roomLeft_le ((relabelings init).image arrayList) reps []
      have hb := better_le init (fun l => (pairwise metric).call l attr)
        ((pairwise metric).call init attr)
      have hcard : ((relabelings init).image arrayList).card ≤ numRegions init ^ k := by
        rw [← card_relabelings]; exact Finset.card_image_le
      have := Nat.mul_le_mul_right reps.toNat hcard
      change roomLeft ((relabelings init).image arrayList) reps [] +
        better init (fun l => (pairwise metric).call l attr)
          ((pairwise metric).call init attr) < fuel
      rw [Nat.mul_add, Nat.mul_one] at h3
      omega
    · rintro s _ ⟨h2, h3⟩
      exact ⟨h2.strat, ⟨h2.cont, h2.image⟩, h3⟩

/-- C34, every state of a run: if all regions are contiguous, the region labels are those of `init`
and so are the targets of the tabu moves, then a round returns normally and the same holds afterwards
(default strategy, pairwise objective). -/
theorem c34_round {n q k : Nat} {ρ : Type} (expf : ℚ → ℚ) {metric : ρ → ρ → ℚ}
    (hd : Dissimilarity metric) (idx : Fin k → Fin n) {adj : Adj k}
    (attr : Fin k → ρ) (init : Labels k) (reps : Int) (s : TabuState (Strat n q) k)
    (hc : AllContiguous adj s.labels) (himg : ∀ x, (∃ i, s.labels i = x) ↔ ∃ i, init i = x)
    (htabu : ∀ m ∈ s.tabu.items, ∃ i, init i = m.new) (hst : ∃ v, s.strat = .azp v) :
    ∃ done s', basicRound (Strat.ops expf idx attr (pairwise metric)) (pairwise metric) attr adj
        (noteVisit reps s) = .ok (done, s') ∧
      AllContiguous adj s'.labels ∧ (∀ x, (∃ i, s'.labels i = x) ↔ ∃ i, init i = x) ∧
      (∀ m ∈ s'.tabu.items, ∃ i, init i = m.new) ∧ (∃ v, s'.strat = .azp v) ∧
      (pairwise metric).call s'.labels attr ≤ (pairwise metric).call s.labels attr := by
  have hi : TabuInv adj (fun st : Strat n q => ∃ v, st = .azp v) init (noteVisit reps s) :=
    ⟨hc, himg, htabu, hst⟩
  obtain ⟨⟨done, s'⟩, h1, h2, _, _, h3, _⟩ := (basicRound_post hd.nonneg hd.zero
    (azp_nonWorsening expf idx attr _) hi).total
  exact ⟨done, s', h1, h2.cont, h2.image, h2.tabu, h2.strat,
    lowerMoves_le (pairwise_exact hd.symm hd.zero) h3⟩

example : AllContiguous path4 (![0, 0, 1, 1] : Labels 4) ∧ Symmetric path4 ∧
    Dissimilarity (manhattan (m := 1)) := ⟨path4_cont, path4_symm, manhattan_dissimilarity⟩

theorem basicTabuFit_post {n q : Nat} {ρ : Type} (o : MstOrder) (expf : ℚ → ℚ) {metric : ρ → ρ → ℚ}
    (hd : Dissimilarity metric) {adj : Adj n} (attr : Fin n → ρ) (p : Int)
    (initial : Option (Labels n)) {R : Prop} (hstart : ¬ R → GoodStart adj p initial)
    (len : Option Nat) (reps : Int) (fuel : Nat) (v : ℚ) (rng : Rng) :
    (basicTabuFit (q := q) o expf (pairwise metric) fuel len reps adj attr p initial (.azp v)
      rng).Post R True fun q => ∃ lab, StartsFrom adj p initial lab ∧ FitOk adj lab q.1 ∧
        (pairwise metric).call q.1 attr ≤ (pairwise metric).call lab attr := by
  have he : (pairwise metric).Exact := pairwise_exact hd.symm hd.zero
  have := fitWith_comp (σ := Strat n q) o (adj := adj) attr
    (comp := fun idx a init at' st rng =>
      basicComponent (Strat.ops expf (fun i => idx.get i) at' (pairwise metric)) (pairwise metric)
        at' a len reps fuel init (st.start ((pairwise metric).call init at')) rng)
    (S := fun st => ∃ v, st = .azp v)
    (Q := fun idx init out => KeepsRegions (subAdj adj idx) init out ∧
      (pairwise metric).call out (fun i => attr (idx.get i)) ≤
        (pairwise metric).call init (fun i => attr (idx.get i))) (R := R) (T := True) p
    initial hstart (by
      rintro idx init _ rng _ _ _ hc ⟨v, rfl⟩
      refine (basicComponent_post expf hd (fun i => idx.get i) hc _ len reps fuel
        True (fun h => absurd trivial h) ⟨_, rfl⟩ rng).mono (fun h => h.elim) id ?_
      rintro q ⟨h1, h2, h3⟩
      exact ⟨⟨h2, lowerMoves_le he h3⟩, h1⟩) (.azp v) ⟨v, rfl⟩ rng
  refine Res.Post.mono this id id ?_
  rintro ⟨labels, st', rng'⟩ ⟨_, lab, h1, hf⟩
  exact ⟨lab, h1, fitted_pairwise_le metric attr h1.1 hf⟩

/-- C34 for `fit`: from a good start it does not raise, and if it returns then the labels are a
clustering into contiguous regions with exactly the region labels of the start, whatever the tabu
length, the termination parameter and the random draws; the objective has not become worse. -/
theorem c34_fit_feasible {n q : Nat} {ρ : Type} (o : MstOrder) (expf : ℚ → ℚ) {metric : ρ → ρ → ℚ}
    (hd : Dissimilarity metric) {adj : Adj n} (attr : Fin n → ρ) (p : Nat)
    (init : Labels n) (hstart : GoodStart adj p (some init)) (len : Option Nat) (reps : Int)
    (fuel : Nat) (v : ℚ) (rng : Rng) :
    basicTabuFit (q := q) o expf (pairwise metric) fuel len reps adj attr p (some init) (.azp v) rng =
      .timeout ∨
    ∃ labels st' rng', basicTabuFit (q := q) o expf (pairwise metric) fuel len reps adj attr p
        (some init) (.azp v) rng = .ok (labels, st', rng') ∧
      Feasible adj labels p ∧ (∀ x, (∃ v, labels v = x) ↔ ∃ v, init v = x) ∧
      (∀ v, ∃ u, SameIsland adj u v ∧ init u = labels v) ∧
      (pairwise metric).call labels attr ≤ (pairwise metric).call init attr := by
  have := basicTabuFit_post (q := q) o expf hd attr p (some init) (R := False) (fun _ => hstart)
    len reps fuel v rng
  generalize basicTabuFit (q := q) o expf (pairwise metric) fuel len reps adj attr p (some init)
    (.azp v) rng = x at this ⊢
  cases x with
  | timeout => exact .inl rfl
  | raise e => exact this.elim
  | ok y =>
    obtain ⟨labels, st', rng'⟩ := y
    obtain ⟨lab, ⟨h1, h2, rfl⟩, hfit, hle⟩ := this
    have h2' : numRegions lab = p := by exact_mod_cast h2
    exact .inr ⟨labels, st', rng', rfl, ⟨hfit.contiguous, by rw [FitOk.numRegions_eq hfit, h2']⟩,
      hfit.image, hfit.island, hle⟩

/-- C34 without any hypothesis on the start (none may be given): whatever `fit` returns is a clustering
into exactly `n_regions` contiguous regions. -/
theorem c34_result_feasible {n q : Nat} {ρ : Type} (o : MstOrder) (expf : ℚ → ℚ) {metric : ρ → ρ → ℚ}
    (hd : Dissimilarity metric) {adj : Adj n} (attr : Fin n → ρ) (p : Nat)
    (initial : Option (Labels n)) (len : Option Nat) (reps : Int) (fuel : Nat) (v : ℚ) (rng : Rng)
    {labels : Labels n} {st' : Strat n q} {rng' : Rng}
    (h : basicTabuFit o expf (pairwise metric) fuel len reps adj attr p initial (.azp v) rng =
      .ok (labels, st', rng')) : Feasible adj labels p := by
  obtain ⟨lab, h1, hfit, -⟩ := (basicTabuFit_post (q := q) o expf hd attr p initial (R := True)
    (fun h => absurd trivial h) len reps fuel v rng).ok h
  have h2' : numRegions lab = p := by exact_mod_cast h1.2.1
  exact ⟨hfit.contiguous, by rw [FitOk.numRegions_eq hfit, h2']⟩

example : (match basicTabuFit (q := 0) .rowMajor (fun _ => 0) (pairwise manhattan) 20 none 3 path4
      (column ![0, 0, 5, 5]) (2 : Nat) none (.azp 0) fun _ => 0 with
    | .ok (L, _, _) => arrayList L
    | _ => []) = [0, 0, 1, 1] := by decide +kernel

example : GoodStart path4 (2 : Nat) (some ![0, 0, 1, 1]) := path4_start

/-- The dissimilarities of the areas have no ties: no area is exactly equally dissimilar, in total, to
two disjoint groups of other areas. -/
def TieFree {n : Nat} (d : Fin n → Fin n → ℚ) : Prop :=
  ∀ (a : Fin n) (S T : Finset (Fin n)), S.Nonempty → a ∉ S → a ∉ T → Disjoint S T →
    ∑ i ∈ S, d i a ≠ ∑ i ∈ T, d i a

theorem noTies_of_tieFree {n : Nat} {ρ : Type} {metric : ρ → ρ → ℚ} (h0 : ∀ x, metric x x = 0)
    {attr : Fin n → ρ} (h : TieFree fun i j => metric (attr i) (attr j)) {idx : List (Fin n)}
    (hnd : idx.Nodup) (init : Labels idx.length) :
    NoTies init (pairwise metric) fun i => attr (idx.get i) := by
  intro L _ a r hne hu
  obtain ⟨⟨w, hw⟩, he⟩ := pairwise_update_iff.1 hu
  let e : Fin idx.length ↪ Fin n := ⟨idx.get, hnd.injective_get⟩
  have hset : ∀ (s : Finset (Fin idx.length)),
      ∑ i ∈ s, metric (attr (idx.get i)) (attr (idx.get a)) =
        ∑ i ∈ s.map e, metric (attr i) (attr (idx.get a)) := by
    intro s
    rw [Finset.sum_map]
    rfl
  have hsplit : ∑ i ∈ Finset.univ.filter (fun i => L i = L a),
      metric (attr (idx.get i)) (attr (idx.get a)) =
      ∑ i ∈ (Finset.univ.filter (fun i => L i = L a)).erase a,
        metric (attr (idx.get i)) (attr (idx.get a)) := by
    rw [← Finset.add_sum_erase _ _ (show a ∈ Finset.univ.filter (fun i => L i = L a) by simp), h0,
      zero_add]
  rw [hsplit, hset, hset] at he
  refine h (idx.get a) _ _ ?_ ?_ ?_ ?_ (sub_eq_zero.1 he.symm)
  · exact ⟨e w, Finset.mem_map_of_mem e (by simp [hw])⟩
  · intro hmem
    obtain ⟨i, hi, hie⟩ := Finset.mem_map.1 hmem
    have : i = a := e.injective hie
    subst this
    simp at hi
    exact hne hi
  · intro hmem
    obtain ⟨i, hi, hie⟩ := Finset.mem_map.1 hmem
    have : i = a := e.injective hie
    subst this
    simp at hi
  · rw [Finset.disjoint_map]
    rw [Finset.disjoint_left]
    intro i hi hi'
    simp only [Finset.mem_filter, Finset.mem_univ, true_and, Finset.mem_erase] at hi hi'
    exact hne (hi'.2.symm.trans hi)

/-- C36 (part): if the dissimilarities have no ties, then `fit` returns from every good start, for
every tabu length, termination parameter and random draws; the loop needs at most
`n^n * (reps + 1)` rounds per component.  Missing: data with ties, see `c36_not_terminating`. -/
theorem c36_terminates_partial {n q : Nat} {ρ : Type} (o : MstOrder) (expf : ℚ → ℚ)
    {metric : ρ → ρ → ℚ} (hd : Dissimilarity metric) {adj : Adj n}
    (attr : Fin n → ρ) (htie : TieFree fun i j => metric (attr i) (attr j)) (p : Int)
    (initial : Option (Labels n)) (hstart : GoodStart adj p initial) (len : Option Nat) (reps : Int)
    (fuel : Nat) (hf : n ^ n * (reps.toNat + 1) < fuel) (v : ℚ) (rng : Rng) :
    ∃ out, basicTabuFit (q := q) o expf (pairwise metric) fuel len reps adj attr p initial (.azp v)
      rng = .ok out := by
  have := fitWith_comp (σ := Strat n q) o (adj := adj) attr
    (comp := fun idx a init at' st rng =>
      basicComponent (Strat.ops expf (fun i => idx.get i) at' (pairwise metric)) (pairwise metric)
        at' a len reps fuel init (st.start ((pairwise metric).call init at')) rng)
    (S := fun st => ∃ v, st = .azp v)
    (Q := fun idx init out => True) (R := False) (T := False) p
    initial (fun _ => hstart) (by
      rintro idx init _ rng hnd hlen hne hc ⟨v, rfl⟩
      refine (basicComponent_post expf hd (fun i => idx.get i) hc _ len reps fuel
        False (fun _ => ⟨noTies_of_tieFree hd.zero htie hnd init, ?_⟩) ⟨_, rfl⟩ rng).mono id id ?_
      · have hnum : numRegions init ≤ idx.length := by
          unfold numRegions
          exact Finset.card_image_le.trans (by simp)
        have hpow : numRegions init ^ idx.length ≤ n ^ n := by
          have h1 : 0 < n := lt_of_lt_of_le (List.length_pos_iff.2 (hne not_false)) hlen
          exact (Nat.pow_le_pow_left (hnum.trans hlen) _).trans (Nat.pow_le_pow_right h1 hlen)
        exact (Nat.mul_le_mul_right _ hpow).trans_lt hf
      · rintro q ⟨h1, h2, _⟩
        exact ⟨trivial, h1⟩) (.azp v) ⟨v, rfl⟩ rng
  obtain ⟨out, h, _⟩ := this.total
  exact ⟨out, h⟩

example : TieFree fun i j => manhattan (column ![0, 1, 10, 100] i) (column ![0, 1, 10, 100] j) := by
  unfold TieFree
  decide +kernel

/-! #### Non-termination -/

/-- C36 is false: on a star of four areas with equal attributes and three regions the loop never ends,
for any tabu length (including the default `None`), any `repetitions_before_termination` and any
random draws: the value-neutral moves of the centre are always preferred to stopping. -/
theorem c36_not_terminating (len : Option Nat) (reps : Int) (fuel : Nat) (v : ℚ) (rng : Rng) :
    Feasible star4 (![0, 0, 1, 2] : Labels 4) 3 ∧
    basicComponent (Strat.ops (q := 0) (fun _ => 0) (id : Fin 4 → Fin 4) (column fun _ => 0)
      (pairwise manhattan)) (pairwise manhattan) (column fun _ => 0) star4 len reps fuel
      ![0, 0, 1, 2] (.azp v) rng = .timeout := by
  refine ⟨⟨((c04_assert_feasible_ok _ star4 none).1 (by decide +kernel)).1, by decide +kernel⟩, ?_⟩
  unfold basicComponent
  rw [if_neg (by decide +kernel), star_loop (P := fun st => ∃ v, st = .azp v) starPasses_azp reps fuel _
    ⟨⟨v, rfl⟩, fun _ => rfl, by simp, .inl rfl⟩]
  rfl

/-! ### C67 -/

/-- C67 (part): everything basic tabu search does on a component is a sequence of moves none of which
worsens the objective. -/
theorem c67_never_worsens {n q : Nat} {ρ : Type} (expf : ℚ → ℚ) {metric : ρ → ρ → ℚ}
    (hd : Dissimilarity metric) {k : Nat} (idx : Fin k → Fin n) {adj : Adj k}
    (init : Labels k) (hc : AllContiguous adj init) (attr : Fin k → ρ) (len : Option Nat)
    (reps : Int) (fuel : Nat) (v : ℚ) (rng : Rng) {out : Labels k} {st' : Strat n q} {rng' : Rng}
    (h : basicComponent (Strat.ops expf idx attr (pairwise metric)) (pairwise metric) attr adj len
      reps fuel init (.azp v) rng = .ok (out, st', rng')) :
    ReflTransGen (fun L L' => ∃ a r, L' = moved L a r ∧ AllContiguous adj L' ∧
      (pairwise metric).call L' attr ≤ (pairwise metric).call L attr) init out ∧
    (pairwise metric).call out attr ≤ (pairwise metric).call init attr := by
  have he : (pairwise metric).Exact := pairwise_exact hd.symm hd.zero
  obtain ⟨_, _, h2⟩ := (basicComponent_post expf hd idx hc attr len reps fuel True
    (fun h => absurd trivial h) ⟨v, rfl⟩ rng).ok h
  refine ⟨rtg_mono ?_ h2, lowerMoves_le he h2⟩
  rintro L L' hm
  have := lowerMoves_le he (.single hm)
  obtain ⟨a, r, d, _, _, _, h3, h4, _⟩ := hm
  exact ⟨a, r, h3, h4, this⟩

theorem basicLoop_stuck {σ : Type} {k : Nat} {ρ : Type} {ops : StratOps σ k} {metric : ρ → ρ → ℚ}
    {attr : Fin k → ρ} {adj : Adj k} {P : σ → Prop}
    (hop : NonWorsening ops (pairwise metric) attr P) {init : Labels k}
    (hopt : ∀ a r d, Admissible adj init a r →
      (pairwise metric).update a r init attr = some d → 0 < d) (reps : Int) :
    ∀ (fuel : Nat) (s : TabuState σ k), s.labels = init → s.tabu.items = [] → P s.strat →
      (s.stop = false → (reps - s.visited.count (arrayList init)).toNat + 1 ≤ fuel) →
      (s.stop = true → 1 ≤ fuel) →
      (basicLoop ops (pairwise metric) attr adj reps fuel s).Post False False fun s' =>
        s'.labels = init ∧ P s'.strat := by
  have hupd : ∀ t, ∀ m ∈ possibleMoves adj init t,
      ∃ d, (pairwise metric).update m.area m.new init attr = some d := by
    intro t m hm
    obtain ⟨_, ⟨_, ⟨u, hu, _⟩, _⟩, _⟩ := possibleMoves_admissible hm
    exact ⟨_, pairwise_update_iff.2 ⟨⟨u, hu⟩, rfl⟩⟩
  intro fuel
  induction fuel with
  | zero =>
    intro s _ _ _ h1 h2
    exfalso
    cases hst : s.stop with
    | true => have := h2 hst; omega
    | false => have := h1 hst; omega
  | succ fuel ih =>
    intro s hl ht hP h1 h2
    unfold basicLoop
    have hround : (basicRound ops (pairwise metric) attr adj (noteVisit reps s)).Post False False
        fun p => p.2.labels = init ∧ p.2.tabu.items = [] ∧ P p.2.strat ∧
          p.2.stop = (noteVisit reps s).stop ∧ p.2.visited = (noteVisit reps s).visited ∧
          p.1 = (noteVisit reps s).stop := by
      have hasp : ∀ best : Option (Nat × Move k × ℚ),
          (∀ j m d, best = some (j, m, d) →
            (pairwise metric).update m.area m.new init attr = some d ∧ 0 < d) →
          (basicElse ops (pairwise metric) attr adj best (noteVisit reps s)).Post False False
          fun p => p.2.labels = init ∧ p.2.tabu.items = [] ∧ P p.2.strat ∧
          p.2.stop = (noteVisit reps s).stop ∧ p.2.visited = (noteVisit reps s).visited ∧
          p.1 = (noteVisit reps s).stop := by
        intro best hbest
        unfold basicElse aspiration
        rw [show (noteVisit reps s).tabu.items = [] from ht]
        unfold improvingTabus
        rw [Res.bind_ok, if_pos rfl, Res.bind_ok]
        split_ifs with hstop
        · exact ⟨hl, ht, hP, rfl, rfl, hstop.symm⟩
        · have hstop' : (noteVisit reps s).stop = false := by simpa using hstop
          rcases best with _ | ⟨j, m, d⟩
          · exact ⟨hl, ht, hP, rfl, rfl, hstop'.symm⟩
          · obtain ⟨hd, hpos⟩ := hbest j m d rfl
            dsimp only
            refine Res.Post.bind (Q := fun p : Bool × TabuState σ k => p.2.labels = init ∧
              p.2.tabu.items = [] ∧ P p.2.strat ∧ p.2.stop = (noteVisit reps s).stop ∧
              p.2.visited = (noteVisit reps s).visited) ?_ (fun p _ h =>
                ⟨h.1, h.2.1, h.2.2.1, h.2.2.2.1, h.2.2.2.2, hstop'.symm⟩)
            unfold tryMove
            rw [show (noteVisit reps s).labels = init from hl]
            refine (hop _ m.area m.new init (noteVisit reps s).rng d hP hd).bind ?_
            rintro ⟨al, st, rng⟩ _ ⟨hP', hal⟩
            dsimp only at hP' hal ⊢
            have : al = false := by
              cases al with
              | false => rfl
              | true => have := hal.1 rfl; linarith
            subst this
            exact ⟨rfl, ht, hP', rfl, rfl⟩
      unfold basicRound
      rw [show (noteVisit reps s).labels = init from hl]
      refine (bestMove_post (hupd _) 0 none).bind ?_
      intro best _ hb
      rcases best with _ | ⟨j, m, d⟩
      · exact hasp none (by simp)
      · dsimp only at hb ⊢
        obtain ⟨_, hjm, hd⟩ := hb.1.resolve_left (by simp)
        have hpos := hopt _ _ d (possibleMoves_admissible (List.mem_of_getElem? hjm)).2.1 hd
        rw [if_neg (not_le.2 hpos)]
        refine hasp _ ?_
        rintro j' m' d' h
        cases h
        exact ⟨hd, hpos⟩
    refine hround.bind ?_
    rintro ⟨done, s'⟩ _ ⟨a1, a2, a3, a4, a5, a6⟩
    dsimp only at a1 a2 a3 a4 a5 a6 ⊢
    cases hdone : done with
    | true => exact ⟨a1, a3⟩
    | false =>
      rw [if_neg (by simp)]
      rw [hdone] at a6
      have hns : (noteVisit reps s).stop = false := a6.symm
      have hold : s.stop = false ∧
          ¬ reps ≤ (s.visited.count (arrayList s.labels) : Int) := by
        simpa [noteVisit] using hns
      refine ih s' a1 a2 a3 (fun _ => ?_) (fun h => by rw [a4, hns] at h; cases h)
      have := h1 hold.1
      have hge := hold.2
      rw [hl] at hge
      rw [a5]
      change (reps - ((s.visited ++ [arrayList s.labels]).count (arrayList init) : Nat)).toNat + 1 ≤ fuel
      rw [hl, List.count_append]
      simp only [List.count_singleton_self]
      push_cast
      omega

/-- C67 is false: "step 4: if there is no improving move and no aspirational move, then make the best
move even if it is nonimproving" never happens.  If every admissible move from the initial solution
worsens the objective, basic tabu search returns the initial solution, after
`repetitions_before_termination + 1` idle rounds. -/
theorem c67_stuck_in_local_optimum {n q : Nat} {ρ : Type} (expf : ℚ → ℚ) {metric : ρ → ρ → ℚ}
    (hd : Dissimilarity metric) {k : Nat} (idx : Fin k → Fin n) {adj : Adj k}
    (init : Labels k) (attr : Fin k → ρ)
    (hopt : ∀ a r, Admissible adj init a r →
      (pairwise metric).call init attr < (pairwise metric).call (moved init a r) attr)
    (len : Option Nat) (reps : Int) (fuel : Nat) (hf : reps.toNat < fuel) (v : ℚ) (rng : Rng) :
    ∃ st' rng', basicComponent (Strat.ops (q := q) expf idx attr (pairwise metric)) (pairwise metric)
      attr adj len reps fuel init (.azp v) rng = .ok (init, st', rng') := by
  have he : (pairwise metric).Exact := pairwise_exact hd.symm hd.zero
  unfold basicComponent
  split_ifs with h1
  · exact ⟨_, _, rfl⟩
  · obtain ⟨s, h2, h3, _⟩ := (basicLoop_stuck (P := fun st : Strat n q => ∃ v, st = .azp v)
      (azp_nonWorsening (q := q) expf idx attr (pairwise metric)) (init := init) (by
        intro a r d hm hd
        have := hopt a r hm
        rw [he _ _ _ _ _ hd] at this
        linarith) reps fuel
      { labels := init, tabu := ⟨[], len⟩, visited := [], stop := false, strat := .azp v, rng := rng }
      rfl rfl ⟨v, rfl⟩ (fun _ => by simp; omega) (fun h => by cases h)).total
    refine ⟨s.strat, s.rng, ?_⟩
    rw [h2, Res.bind_ok, h3]

/-- In the path 0-1-2-3 with attributes 0, 1, 10, 11 and regions {0, 1}, {2, 3} there are admissible
moves and all of them worsen the objective. -/
example : Admissible path4 (![0, 0, 1, 1] : Labels 4) 1 1 ∧
    ∀ a r, Admissible path4 (![0, 0, 1, 1] : Labels 4) a r →
      (pairwise manhattan).call ![0, 0, 1, 1] (column ![0, 1, 10, 11]) <
        (pairwise manhattan).call (moved ![0, 0, 1, 1] a r) (column ![0, 1, 10, 11]) := by
  have h : possibleMoves path4 ![0, 0, 1, 1] ⟨[], none⟩ = [⟨1, 0, 1⟩, ⟨2, 1, 0⟩] := by decide +kernel
  constructor
  · have : (⟨1, 0, 1⟩ : Move 4) ∈ possibleMoves path4 ![0, 0, 1, 1] ⟨[], none⟩ := by rw [h]; simp
    exact ((mem_possibleMoves path4_symm).1 this).2.1
  · intro a r hm
    have := (mem_possibleMoves path4_symm (t := ⟨[], none⟩)
      (m := ⟨a, (![0, 0, 1, 1] : Labels 4) a, r⟩)).2 ⟨rfl, hm, by simp⟩
    rw [h] at this
    simp only [List.mem_cons, Move.mk.injEq, List.not_mem_nil, or_false] at this
    rcases this with ⟨rfl, _, rfl⟩ | ⟨rfl, _, rfl⟩ <;> decide +kernel

/-! ### C37 -/

/-- C37: on an object that has not stored any labelling yet, whenever the reactive tabu routine
returns, its result is an array of the right length, all of whose regions are contiguous and whose
labels all occur in the initial labelling, and it has been reached from there by moving one area at a time,
with contiguous regions all along: for every strategy, objective, parameters and random draws. -/
theorem c37_fresh_result {σ ρ : Type} {k : Nat} (ops : StratOps σ k) (obj : Objective ρ)
    (attr : Fin k → ρ) {adj : Adj k} (init : Labels k)
    (hc : AllContiguous adj init) (maxIt : Nat) (k1 k2 : Int) (self : ReactObj σ)
    (hv : self.visited = []) {out : List Int} {self' : ReactObj σ}
    (h : reactComponentList ops obj attr adj maxIt k1 k2 init self = .ok (out, self')) :
    ∃ labels : Labels k, out = arrayList labels ∧ AllContiguous adj labels ∧
      (∀ v, ∃ u, init u = labels v) ∧ MoveWalk adj init labels :=
  (reactComponentList_good (P := MoveWalk adj init) (fun _ _ h hs => h.tail hs) .refl hc maxIt k1 k2 self
    (by rw [hv]; simp) h).1

/-- A fresh reactive tabu object on a whole map with one attribute. -/
def reactRun {k : Nat} (adj : Adj k) (values : Fin k → ℚ) (init : Labels k) (maxIt : Nat)
    (k1 k2 : Int) (visited : List (List Int)) (rng : Rng) : Res (List Int × List (List Int)) := do
  let (out, self) ← reactComponentList
    (Strat.ops (q := 0) (fun _ => 0) (id : Fin k → Fin k) (column values) (pairwise manhattan))
    (pairwise manhattan) (column values) adj maxIt k1 k2 init
    ⟨visited, 1, 1, .azp ((pairwise manhattan).call init (column values)), rng⟩
  .ok (out, self.visited)

example : reactRun path4 ![0, 1, 2, 3] ![0, 0, 0, 1] 10 1 1 [] (fun _ => 0) =
    .ok ([0, 0, 1, 1], [[0, 0, 1, 1], [0, 0, 1, 1]]) := by decide +kernel

/-! ### C38 -/

/-- Two islands of three areas each. -/
def islands33 : Adj 6 := fun i j =>
  decide ((i.val + 1 = j.val ∨ j.val + 1 = i.val) ∧ i.val / 3 = j.val / 3)

/-- C38 is false: with two islands that both start in a local optimum, the second island receives the
labels of the first one, so that regions 0 and 1 are scattered over both islands. -/
theorem c38_foreign_labels :
    Feasible islands33 (![0, 0, 1, 2, 2, 3] : Labels 6) 4 ∧
    (match reactiveTabuFit (q := 0) .rowMajor (fun _ => 0) (pairwise manhattan) 10 1 1 islands33
        (column ![0, 0, 5, 0, 0, 5]) 4 (some ![0, 0, 1, 2, 2, 3]) (ReactSelf.fresh (.azp 0))
        (fun _ => 0) with
      | .ok (L, _, _) => some (arrayList L)
      | _ => none) = some [0, 0, 1, 0, 0, 1] ∧
    ¬ AllContiguous islands33 (![0, 0, 1, 0, 0, 1] : Labels 6) := by
  refine ⟨⟨((c04_assert_feasible_ok _ islands33 none).1 (by decide +kernel)).1,
    by decide +kernel⟩, by decide +kernel, ?_⟩
  intro h
  have := (c04_assert_feasible_ok (![0, 0, 1, 0, 0, 1] : Labels 6) islands33 none).2 ⟨h, by simp⟩
  revert this
  decide +kernel

/-- C38 is false: if the islands differ in size, `fit` raises `ValueError`. -/
theorem c38_wrong_length :
    (match reactiveTabuFit (q := 0) .rowMajor (fun _ => 0) (pairwise manhattan) 10 1 1
        (fun i j : Fin 7 => decide ((i.val + 1 = j.val ∨ j.val + 1 = i.val) ∧
          (i.val < 4 ↔ j.val < 4)))
        (column ![0, 0, 5, 5, 0, 0, 5]) 4 (some ![0, 0, 1, 1, 2, 2, 3]) (ReactSelf.fresh (.azp 0))
        (fun _ => 0) with
      | .raise (.valueError m) => m
      | _ => "") = "shape mismatch" := by
  decide +kernel

/-- C38 (part): if the stored labellings all belong to this component (contiguous regions, labels of
the initial labelling), then so do the result and the labellings stored afterwards.  Missing: labellings
stored for other components, or by an earlier `fit` with other labels. -/
theorem c38_same_component_partial {σ ρ : Type} {k : Nat} (ops : StratOps σ k) (obj : Objective ρ)
    (attr : Fin k → ρ) {adj : Adj k} (init : Labels k)
    (hc : AllContiguous adj init) (maxIt : Nat) (k1 k2 : Int) (self : ReactObj σ)
    (hv : ∀ l ∈ self.visited, ∃ L : Labels k, l = arrayList L ∧ AllContiguous adj L ∧
      ∀ v, ∃ u, init u = L v)
    {out : List Int} {self' : ReactObj σ}
    (h : reactComponentList ops obj attr adj maxIt k1 k2 init self = .ok (out, self')) :
    ∀ l ∈ out :: self'.visited, ∃ L : Labels k, l = arrayList L ∧ AllContiguous adj L ∧
      ∀ v, ∃ u, init u = L v := by
  obtain ⟨⟨L, h1, h2, h3, -⟩, h4⟩ := reactComponentList_good (P := fun _ => True) (fun _ _ _ _ => trivial) trivial
    hc maxIt k1 k2 self (fun l hl => let ⟨L, h1, h2, h3⟩ := hv l hl; ⟨L, h1, h2, h3, trivial⟩) h
  intro l hl
  rcases List.mem_cons.1 hl with rfl | hl
  · exact ⟨L, h1, h2, h3⟩
  · obtain ⟨L, h1, h2, h3, -⟩ := h4 l hl
    exact ⟨L, h1, h2, h3⟩

/-! ### C39 -/

/-- C39 is false, and trivially so: if no admissible move exists (for example as many regions as
areas), the attribute `area` of `None` is accessed. -/
theorem c39_attribute_error {σ ρ : Type} {k : Nat} (ops : StratOps σ k) {obj : Objective ρ}
    (attr : Fin k → ρ) {adj : Adj k} (init : Labels k)
    (hinj : ∀ u v, init u = init v → u = v) (h2 : numRegions init ≠ 1) (maxIt : Nat)
    (hm : 1 ≤ maxIt) (k1 k2 : Int) (self : ReactObj σ) :
    reactComponentList ops obj attr adj maxIt k1 k2 init self = .raise .attributeError := by
  unfold reactComponentList
  rw [length_unique_labels, if_neg h2]
  obtain ⟨m, rfl⟩ : ∃ m, maxIt = m + 1 := ⟨maxIt - 1, by omega⟩
  unfold reactLoop
  dsimp only
  rw [if_pos (show improving none (obj.call init attr) = true from rfl)]
  unfold reactRound
  dsimp only
  have : possibleMoves adj init ⟨[], some 1⟩ = [] := by
    rw [List.eq_nil_iff_forall_not_mem]
    intro mv hmv
    obtain ⟨_, ⟨_, _, ⟨b, hb, hbe⟩, _⟩, _⟩ := possibleMoves_admissible hmv
    exact hb (hinj _ _ hbe)
  rw [this]
  rfl

example : (∀ u v, (![0, 1, 2, 3] : Labels 4) u = (![0, 1, 2, 3] : Labels 4) v → u = v) ∧
    numRegions (![0, 1, 2, 3] : Labels 4) ≠ 1 ∧ Symmetric path4 :=
  ⟨by decide +kernel, by decide +kernel, path4_symm⟩

/-- C39 is false: with `k1 = 0` and `k2 = 1` the statement `deque(self.tabu, 1.1 * self.tabu.maxlen)`
raises `TypeError`. -/
theorem c39_type_error : reactRun path4 ![0, 1, 2, 3] ![0, 0, 0, 1] 10 0 1 [] (fun _ => 0) =
    .raise .typeError := by decide +kernel

/-- C39 is false: with `k1 = k2 = 0` the random choice from an empty list raises `ValueError`. -/
theorem c39_value_error : reactRun path4 ![0, 1, 2, 3] ![0, 0, 0, 1] 10 0 0 [] (fun _ => 0) =
    .raise (.valueError "empty range for randrange()") := by decide +kernel

/-- C39 (part): on a fresh object, with the default strategy, `k1 ≥ 1`, `max_iterations ≥ 1` and an
exact objective, the routine returns, provided that every contiguous labelling with the same region
labels admits at least two different moves; the result has contiguous regions, exactly the region
labels of the start and an objective that is not worse.  Missing: other parameters, objects used
before, and labellings with fewer moves, all of which can make it raise. -/
theorem c39_returns_partial {n q k : Nat} {ρ : Type} (expf : ℚ → ℚ) {obj : Objective ρ}
    (he : obj.Exact) (ht : obj.Total) (idx : Fin k → Fin n) (attr : Fin k → ρ) {adj : Adj k}
    (hs : Symmetric adj) (init : Labels k) (hc : AllContiguous adj init)
    (htwo : ∀ L : Labels k, AllContiguous adj L → (∀ x, (∃ i, L i = x) ↔ ∃ i, init i = x) →
      ∃ a r b r', Admissible adj L a r ∧ Admissible adj L b r' ∧ (a, r) ≠ (b, r'))
    (k1 k2 : Int) (hk1 : 1 ≤ k1) (maxIt : Nat) (hm : 1 ≤ maxIt) (avg : ℚ) (rep : Nat) (v : ℚ)
    (rng : Rng) :
    ∃ labels self', reactComponentList (Strat.ops (q := q) expf idx attr obj) obj attr adj maxIt k1
        k2 init ⟨[], avg, rep, .azp v, rng⟩ = .ok (arrayList labels, self') ∧
      AllContiguous adj labels ∧ (∀ x, (∃ i, labels i = x) ↔ ∃ i, init i = x) ∧
      obj.call labels attr ≤ obj.call init attr := by
  obtain ⟨⟨out, self'⟩, h1, L, h2, h3, h4⟩ := (reactComponentList_default (R := False) hs he ht
    (azp_nonWorsening (q := q) expf idx attr obj) hc hk1 k2 hm (by
      intro L t h1 h2 h3 h4 _
      obtain ⟨a, r, b, r', ha, hb, hne⟩ := htwo L h1 h2
      have m1 := h4 ⟨a, L a, r⟩ rfl ha
      have m2 := h4 ⟨b, L b, r'⟩ rfl hb
      match hti : t.items, h3, m1, m2 with
      | [x], _, m1, m2 =>
        rw [List.mem_singleton] at m1 m2
        rw [← m1] at m2
        apply hne
        simp only [Move.mk.injEq] at m2
        rw [m2.1, m2.2.2]) ⟨[], avg, rep, .azp v, rng⟩ rfl ⟨v, rfl⟩).total
  dsimp only at h2
  subst h2
  exact ⟨L, self', h1, h3.1, h3.2, h4⟩

/-- In a ring of four areas every contiguous labelling with two regions admits two moves. -/
def ring4 : Adj 4 := fun i j => decide ((i.val + 1) % 4 = j.val ∨ (j.val + 1) % 4 = i.val)

theorem ring4_symm : Symmetric ring4 := by unfold Spec.Symmetric; decide +kernel

theorem ring4_two_moves (L : Labels 4)
    (himg : ∀ x, (∃ i, L i = x) ↔ ∃ i, (![0, 0, 1, 1] : Labels 4) i = x) :
    2 ≤ (possibleMoves ring4 L ⟨[], none⟩).dedup.length ∨ ¬ AllContiguous ring4 L := by
  have hval : ∀ v, L v = 0 ∨ L v = 1 := by
    intro v
    obtain ⟨i, hi⟩ := (himg (L v)).1 ⟨v, rfl⟩
    rw [← hi]
    fin_cases i <;> simp
  have hno : ¬ (∀ v, L v = 0) ∧ ¬ (∀ v, L v = 1) := by
    constructor
    · intro h
      obtain ⟨i, hi⟩ := (himg 1).2 ⟨2, rfl⟩
      rw [h i] at hi; cases hi
    · intro h
      obtain ⟨i, hi⟩ := (himg 0).2 ⟨0, rfl⟩
      rw [h i] at hi; cases hi
  have hL : L = ![L 0, L 1, L 2, L 3] := by
    funext i
    fin_cases i <;> rfl
  have hch : ∀ a b c d : Bool, (![cond a 1 0, cond b 1 0, cond c 1 0, cond d 1 0] : Labels 4) ≠
      (fun _ => 0) → (![cond a 1 0, cond b 1 0, cond c 1 0, cond d 1 0] : Labels 4) ≠ (fun _ => 1) →
      2 ≤ (possibleMoves ring4 (![cond a 1 0, cond b 1 0, cond c 1 0, cond d 1 0] : Labels 4)
        ⟨[], none⟩).dedup.length ∨
      assertFeasible (![cond a 1 0, cond b 1 0, cond c 1 0, cond d 1 0] : Labels 4) ring4 none ≠
        .ok () := by decide +kernel
  have hb : ∀ v, ∃ b : Bool, L v = cond b 1 0 := by
    intro v
    rcases hval v with h | h
    · exact ⟨false, h⟩
    · exact ⟨true, h⟩
  obtain ⟨a, ha⟩ := hb 0
  obtain ⟨b, hb1⟩ := hb 1
  obtain ⟨c, hc⟩ := hb 2
  obtain ⟨d, hd⟩ := hb 3
  rw [ha, hb1, hc, hd] at hL
  rw [hL] at hno ⊢
  rcases hch a b c d (fun h => hno.1 fun v => congrFun h v) (fun h => hno.2 fun v => congrFun h v)
    with h | h
  · exact .inl h
  · refine .inr fun hcon => h ((c04_assert_feasible_ok _ ring4 none).2 ⟨hcon, by simp⟩)

example : AllContiguous ring4 (![0, 0, 1, 1] : Labels 4) ∧
    ∀ L : Labels 4, AllContiguous ring4 L →
      (∀ x, (∃ i, L i = x) ↔ ∃ i, (![0, 0, 1, 1] : Labels 4) i = x) →
      ∃ a r b r', Admissible ring4 L a r ∧ Admissible ring4 L b r' ∧ (a, r) ≠ (b, r') := by
  refine ⟨((c04_assert_feasible_ok _ ring4 none).1 (by decide +kernel)).1, ?_⟩
  intro L hc himg
  have h := (ring4_two_moves L himg).resolve_right (fun h => h hc)
  match hl : (possibleMoves ring4 L ⟨[], none⟩).dedup, h with
  | x :: y :: rest, _ =>
    have hnd : (possibleMoves ring4 L ⟨[], none⟩).dedup.Nodup := List.nodup_dedup _
    rw [hl] at hnd
    have hx : x ∈ possibleMoves ring4 L ⟨[], none⟩ := by
      rw [← List.mem_dedup, hl]; simp
    have hy : y ∈ possibleMoves ring4 L ⟨[], none⟩ := by
      rw [← List.mem_dedup, hl]; simp
    have hxy : x ≠ y := by
      rintro rfl
      simp at hnd
    obtain ⟨ox, ax, _⟩ := (mem_possibleMoves ring4_symm).1 hx
    obtain ⟨oy, ay, _⟩ := (mem_possibleMoves ring4_symm).1 hy
    refine ⟨x.area, x.new, y.area, y.new, ax, ay, ?_⟩
    intro h
    apply hxy
    rw [Prod.mk.injEq] at h
    cases x
    cases y
    simp only at h ox oy
    simp [h.1, h.2, ox, oy]

/-! ### C68, C69 -/

/-- C68 is false: if `max_iterations` ends the loop, the labelling before the last move is returned,
although the last move improved the objective. -/
theorem c68_last_improvement_lost :
    reactRun path5 ![0, 10, 10, 10, 10] ![0, 0, 0, 0, 1] 2 1 1 [] (fun _ => 0) =
      .ok ([0, 0, 0, 1, 1], [[0, 0, 0, 1, 1], [0, 0, 1, 1, 1]]) ∧
    (pairwise manhattan).call (![0, 0, 1, 1, 1] : Labels 5) (column ![0, 10, 10, 10, 10]) <
      (pairwise manhattan).call (![0, 0, 0, 1, 1] : Labels 5) (column ![0, 10, 10, 10, 10]) := by
  decide +kernel

/-- C69 is false: on an object used before, with `k1 = k2 = 0`, the random moves of step 11 can empty
a region: three regions go in, two come out. -/
theorem c69_region_lost :
    Feasible path5 (![0, 1, 1, 2, 2] : Labels 5) 3 ∧
    (match reactRun path5 ![1, 1, 0, 0, 0] ![0, 1, 1, 2, 2] 10 0 0 [] (fun i => i) with
      | .ok (_, visited) =>
        match reactRun path5 ![1, 1, 0, 0, 0] ![0, 1, 1, 2, 2] 10 0 0 visited (fun i => i) with
        | .ok (out, _) => some out
        | _ => none
      | _ => none) = some [0, 0, 2, 2, 2] :=
  ⟨⟨((c04_assert_feasible_ok _ path5 none).1 (by decide +kernel)).1, by decide +kernel⟩,
    by decide +kernel⟩

/-- C69 (part): on a fresh object with `k1 ≥ 1`, the default strategy and an exact objective, whenever
the routine returns it has kept exactly the initial region labels, and the objective is not worse.
Missing: used objects and `k1 = 0`. -/
theorem c69_keeps_regions_partial {n q k : Nat} {ρ : Type} (expf : ℚ → ℚ) {obj : Objective ρ}
    (he : obj.Exact) (ht : obj.Total) (idx : Fin k → Fin n) (attr : Fin k → ρ) {adj : Adj k}
    (hs : Symmetric adj) (init : Labels k) (hc : AllContiguous adj init) (k1 k2 : Int)
    (hk1 : 1 ≤ k1) (maxIt : Nat) (hm : 1 ≤ maxIt) (avg : ℚ) (rep : Nat) (v : ℚ) (rng : Rng)
    {out : List Int} {self' : ReactObj (Strat n q)}
    (h : reactComponentList (Strat.ops (q := q) expf idx attr obj) obj attr adj maxIt k1 k2 init
      ⟨[], avg, rep, .azp v, rng⟩ = .ok (out, self')) :
    ∃ labels : Labels k, out = arrayList labels ∧ AllContiguous adj labels ∧
      (∀ x, (∃ i, labels i = x) ↔ ∃ i, init i = x) ∧
      obj.call labels attr ≤ obj.call init attr := by
  obtain ⟨L, h2, h3, h4⟩ := (reactComponentList_default (R := True) hs he ht
    (azp_nonWorsening (q := q) expf idx attr obj) hc hk1 k2 hm (fun _ _ _ _ _ _ _ => trivial)
    ⟨[], avg, rep, .azp v, rng⟩ rfl ⟨v, rfl⟩).ok h
  exact ⟨L, h2, h3.1, h3.2, h4⟩

/-- C68 (part): on a fresh object with `k1 ≥ 1`, the default strategy and an exact objective, the
result is at least not worse than the initial labelling.  Missing: that it is the best labelling
visited. -/
theorem c68_not_worse_partial {n q k : Nat} {ρ : Type} (expf : ℚ → ℚ) {obj : Objective ρ}
    (he : obj.Exact) (ht : obj.Total) (idx : Fin k → Fin n) (attr : Fin k → ρ) {adj : Adj k}
    (hs : Symmetric adj) (init : Labels k) (hc : AllContiguous adj init) (k1 k2 : Int)
    (hk1 : 1 ≤ k1) (maxIt : Nat) (hm : 1 ≤ maxIt) (avg : ℚ) (rep : Nat) (v : ℚ) (rng : Rng)
    {labels : Labels k} {self' : ReactObj (Strat n q)}
    (h : reactComponentList (Strat.ops (q := q) expf idx attr obj) obj attr adj maxIt k1 k2 init
      ⟨[], avg, rep, .azp v, rng⟩ = .ok (arrayList labels, self')) :
    obj.call labels attr ≤ obj.call init attr := by
  obtain ⟨L, h2, _, _, h4⟩ := c69_keeps_regions_partial expf he ht idx attr hs init hc k1 k2 hk1
    maxIt hm avg rep v rng h
  rwa [arrayList_inj h2]

end Region.Props
