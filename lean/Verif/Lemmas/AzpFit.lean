import Verif.Lemmas.Azp
import Verif.Lemmas.InitialSol
/-
Lemmas about `AZP.fit_from_scipy_sparse_matrix`: the loop over the components, for an arbitrary
routine clustering one component.
-/
namespace Region

open Spec Relation

/-- The type of the routine clustering one component (azp.py 102-106). -/
abbrev CompFn (σ : Type) (n : Nat) (ρ : Type) :=
  (idx : List (Fin n)) → Adj idx.length → Labels idx.length → (Fin idx.length → ρ) →
      σ → Rng → Res (Labels idx.length × σ × Rng)

/-- The areas shown in a yielded array. -/
def shown {n : Nat} (y : Labels n) : List (Fin n) :=
  (List.finRange n).filter fun i => decide (y i ≠ -1)

theorem mem_shown {n : Nat} {y : Labels n} {v : Fin n} : v ∈ shown y ↔ y v ≠ -1 := by
  simp [shown]

theorem shown_nodup {n : Nat} (y : Labels n) : (shown y).Nodup :=
  (List.nodup_finRange n).filter _

section Fit
variable {σ ρ : Type} {n : Nat} (adj : Adj n) (attr : Fin n → ρ) (comp : CompFn σ n ρ)
  (S : σ → Prop)
  (Q : (idx : List (Fin n)) → Labels idx.length → Labels idx.length → Prop)

/-- One round of the loop did what `Q` says. -/
inductive Fitted : List (Labels n) → Labels n → Labels n → Prop
  | nil (L : Labels n) : Fitted [] L L
  | cons (y : Labels n) (ys : List (Labels n)) (L L' : Labels n)
      (out : Labels (shown y).length) (hq : Q (shown y) (fun i => y ((shown y).get i)) out)
      (h : Fitted ys (scatter (shown y) out L) L') : Fitted (y :: ys) L L'

/-- The array may be given to the component routine. -/
def StepOk (R T : Prop) (y : Labels n) : Prop :=
  ∀ st rng, S st → (comp (shown y) (subAdj adj (shown y)) (fun i => y ((shown y).get i))
    (fun i => attr ((shown y).get i)) st rng).Post R T fun q =>
      Q (shown y) (fun i => y ((shown y).get i)) q.1 ∧ S q.2.1

variable {adj attr comp S Q}

theorem fitLoop_post {R T : Prop} (gen : Gen n)
    (hgen : ∀ s ∈ gen, ∀ r, ∃ y r', s r = .ok (.array y, r') ∧ StepOk adj attr comp S Q R T y) :
    ∀ (L : Labels n) (st : σ) (rng : Rng), S st →
      (fitLoop adj attr comp gen L st rng).Post R T fun q =>
        S q.2.1 ∧ ∃ ys, List.Forall₂ Yields gen ys ∧ Fitted Q ys L q.1 := by
  induction gen with
  | nil => intro L st rng hst; exact ⟨hst, [], .nil, .nil L⟩
  | cons s ss ih =>
    intro L st rng hst
    unfold fitLoop
    obtain ⟨y, r', hy, hstep⟩ := hgen s (by simp) rng
    rw [hy, Res.bind_ok]
    dsimp only
    have h1 := hstep st r' hst
    apply Res.Post.bind (Q := fun q : Labels n × σ × Rng => S q.2.1 ∧
      ∃ out, Q (shown y) (fun i => y ((shown y).get i)) out ∧ q.1 = scatter (shown y) out L)
    · unfold fitStep
      apply h1.bind
      rintro ⟨out, st', rng'⟩ _ ⟨hq, hs⟩
      exact ⟨hs, out, hq, rfl⟩
    rintro ⟨L1, st1, rng1⟩ _ ⟨hs1, out, hq, hL1⟩
    dsimp only at hs1 hL1 ⊢
    apply (ih (fun s hs => hgen s (by simp [hs])) L1 st1 rng1 hs1).mono id id
    rintro q ⟨hs, ys, hys, hf⟩
    subst hL1
    exact ⟨hs, y :: ys, .cons ⟨_, _, hy⟩ hys, .cons y ys L q.1 out hq hf⟩

/-- Areas shown in none of the arrays keep their value. -/
theorem Fitted.eq_of_not_shown {ys : List (Labels n)} {L L' : Labels n} (h : Fitted Q ys L L')
    {v : Fin n} (hv : ∀ y ∈ ys, y v = -1) : L' v = L v := by
  induction h with
  | nil => rfl
  | cons y ys L L' out hq h ih =>
    rw [ih fun y hy => hv y (by simp [hy])]
    exact scatter_not_mem _ _ (by rw [mem_shown]; simp [hv y (by simp)])

/-- If no area is shown twice, the result shows what the routine computed for each array. -/
theorem Fitted.get {ys : List (Labels n)} {L L' : Labels n} (h : Fitted Q ys L L')
    (hd : ys.Pairwise fun y y' => ∀ v, y v ≠ -1 → y' v = -1) {y : Labels n} (hy : y ∈ ys) :
    Q (shown y) (fun i => y ((shown y).get i)) (fun i => L' ((shown y).get i)) := by
  induction h with
  | nil => cases hy
  | cons y0 ys L L' out hq h ih =>
    rw [List.pairwise_cons] at hd
    rcases List.mem_cons.1 hy with rfl | hy
    · have : (fun i => L' ((shown y).get i)) = out := by
        funext i
        have hi : y ((shown y).get i) ≠ -1 := mem_shown.1 (List.get_mem _ _)
        rw [h.eq_of_not_shown fun y' hy' => hd.1 y' hy' _ hi]
        exact scatter_mem (shown_nodup y) _ _ i
      rw [this]; exact hq
    · exact ih hd.2 hy

end Fit

/-- The array of one component. -/
def compArray {n : Nat} (adj : Adj n) (lab : Labels n) (c : Nat) : Labels n :=
  fun i => if compLabels adj i = c then lab i else -1

theorem separateComponents_eq {n : Nat} (adj : Adj n) (lab : Labels n) :
    separateComponents adj lab = (List.range (nComponents adj)).map (compArray adj lab) := rfl

theorem compArray_ne {n : Nat} {adj : Adj n} {lab : Labels n} {c : Nat} {v : Fin n} :
    compArray adj lab c v ≠ -1 ↔ compLabels adj v = c ∧ lab v ≠ -1 := by
  unfold compArray; split_ifs with h <;> simp [h]

theorem separateComponents_disjoint {n : Nat} (adj : Adj n) (lab : Labels n) :
    (separateComponents adj lab).Pairwise fun y y' => ∀ v, y v ≠ -1 → y' v = -1 := by
  rw [separateComponents_eq, List.pairwise_map]
  refine (List.nodup_range).imp ?_
  intro c c' hcc v hv
  by_contra h
  exact hcc ((compArray_ne.1 hv).1.symm.trans (compArray_ne.1 h).1)

theorem fit_result {n : Nat} {adj : Adj n} {lab : Labels n} {L' : Labels n}
    {Q : (idx : List (Fin n)) → Labels idx.length → Labels idx.length → Prop}
    (h : Fitted Q (separateComponents adj lab) (fun _ => -1) L') :
    (∀ v, lab v = -1 → L' v = -1) ∧
    ∀ c, c < nComponents adj →
      Q (shown (compArray adj lab c)) (fun i => lab ((shown (compArray adj lab c)).get i))
        (fun i => L' ((shown (compArray adj lab c)).get i)) := by
  constructor
  · intro v hv
    apply h.eq_of_not_shown
    intro y hy
    rw [separateComponents_eq] at hy
    obtain ⟨c, _, rfl⟩ := List.mem_map.1 hy
    by_contra hc
    exact (compArray_ne.1 hc).2 hv
  · intro c hc
    have := h.get (separateComponents_disjoint adj lab) (y := compArray adj lab c) (by
      rw [separateComponents_eq]; exact List.mem_map.2 ⟨c, by simpa using hc, rfl⟩)
    have he : (fun i => compArray adj lab c ((shown (compArray adj lab c)).get i)) =
        fun i => lab ((shown (compArray adj lab c)).get i) := by
      funext i
      have hi := mem_shown.1 (List.get_mem (shown (compArray adj lab c)) i)
      have := (compArray_ne.1 hi).1
      change (if compLabels adj ((shown (compArray adj lab c)).get i) = c then _ else _) = _
      rw [if_pos this]
    rwa [he] at this

/-- Everything a component routine has to guarantee for the result of `fit` to be feasible. -/
def KeepsRegions {k : Nat} (adj : Adj k) (init out : Labels k) : Prop :=
  AllContiguous adj out ∧ ∀ x, (∃ i, out i = x) ↔ ∃ i, init i = x

/-- What `fit` guarantees about its result, compared with the labelling it started from. -/
structure FitOk {n : Nat} (adj : Adj n) (lab L' : Labels n) : Prop where
  contiguous : AllContiguous adj L'
  image : ∀ x, (∃ i, L' i = x) ↔ ∃ i, lab i = x
  island : ∀ v, ∃ u, SameIsland adj u v ∧ lab u = L' v
  frozen : ∀ v, L' v = -1 ↔ lab v = -1

/-- A path inside a set of nodes is a path in the sub-matrix. -/
theorem pathIn_restrict {n : Nat} {adj : Adj n} {nodes : List (Fin n)} {S : Set (Fin n)}
    (hS : S ⊆ {x | x ∈ nodes}) {a b : Fin n} (h : PathIn adj S a b) (i : Fin nodes.length)
    (hi : nodes.get i = a) :
    ∃ j : Fin nodes.length, nodes.get j = b ∧
      PathIn (subAdj adj nodes) {i | nodes.get i ∈ S} i j := by
  induction h with
  | refl => exact ⟨i, hi, .refl⟩
  | tail _ h ih =>
    obtain ⟨j, hj, hij⟩ := ih
    obtain ⟨k, hk⟩ := List.get_of_mem (hS h.2.1)
    refine ⟨k, hk, hij.tail ⟨?_, ?_, ?_⟩⟩
    · change nodes.get j ∈ S; rw [hj]; exact h.1
    · change nodes.get k ∈ S; rw [hk]; exact h.2.1
    · have := h.2.2
      rw [← hj, ← hk] at this
      exact this

theorem comp_contiguous {n : Nat} {adj : Adj n} {lab : Labels n} (hc : AllContiguous adj lab)
    (c : Nat) :
    AllContiguous (subAdj adj (shown (compArray adj lab c)))
      (fun i => lab ((shown (compArray adj lab c)).get i)) := by
  intro v
  generalize hidx : shown (compArray adj lab c) = idx at v ⊢
  have hmem : ∀ x, x ∈ idx ↔ compLabels adj x = c ∧ lab x ≠ -1 := by
    intro x; rw [← hidx, mem_shown, compArray_ne]
  have hnd : idx.Nodup := hidx ▸ shown_nodup _
  refine ⟨⟨v, rfl⟩, ?_⟩
  intro a ha b hb
  have ha : lab (idx.get a) = lab (idx.get v) := ha
  have hb : lab (idx.get b) = lab (idx.get v) := hb
  have hsub : regionOf lab (lab (idx.get v)) ⊆ {x | x ∈ idx} := by
    intro x hx
    have hp := (hc (idx.get v)).2 (idx.get v) rfl x hx
    have hx' : lab x = lab (idx.get v) := hx
    have hv := (hmem _).1 (List.get_mem idx v)
    rw [Set.mem_ofPred_eq, hmem, hx']
    exact ⟨by rw [← hv.1, compLabels_eq_iff]; exact sameIsland_symm (pathIn_sameIsland hp), hv.2⟩
  obtain ⟨j, hj, hp⟩ := pathIn_restrict hsub ((hc (idx.get v)).2 _ ha _ hb) a rfl
  have : j = b := by
    apply Fin.ext
    have := hnd.injective_get hj
    rw [this]
  subst this
  exact hp

theorem fitOk_of_keeps {n : Nat} {adj : Adj n} {lab L' : Labels n} (hc : AllContiguous adj lab)
    (h1 : ∀ v, lab v = -1 → L' v = -1)
    (h2 : ∀ c, c < nComponents adj →
      KeepsRegions (subAdj adj (shown (compArray adj lab c)))
        (fun i => lab ((shown (compArray adj lab c)).get i))
        (fun i => L' ((shown (compArray adj lab c)).get i))) : FitOk adj lab L' := by
  have hmem : ∀ c x, x ∈ shown (compArray adj lab c) ↔ compLabels adj x = c ∧ lab x ≠ -1 := by
    intro c x; rw [mem_shown, compArray_ne]
  -- labels of a component stay in the component
  have hfrom : ∀ v, lab v ≠ -1 → ∃ u, compLabels adj u = compLabels adj v ∧ lab u ≠ -1 ∧
      lab u = L' v := by
    intro v hv
    obtain ⟨i, hi⟩ := List.get_of_mem ((hmem (compLabels adj v) v).2 ⟨rfl, hv⟩)
    obtain ⟨j, hj⟩ := ((h2 _ (compLabels_lt adj v)).2 (L' v)).1 ⟨i, by dsimp only; rw [hi]⟩
    have := (hmem _ _).1 (List.get_mem (shown (compArray adj lab (compLabels adj v))) j)
    exact ⟨_, this.1, this.2, hj⟩
  have hto : ∀ v, lab v ≠ -1 → ∃ u, L' u = lab v := by
    intro v hv
    obtain ⟨i, hi⟩ := List.get_of_mem ((hmem (compLabels adj v) v).2 ⟨rfl, hv⟩)
    obtain ⟨j, hj⟩ := ((h2 _ (compLabels_lt adj v)).2 (lab v)).2 ⟨i, by dsimp only; rw [hi]⟩
    exact ⟨_, hj⟩
  have hfr : ∀ v, L' v = -1 ↔ lab v = -1 := by
    intro v
    refine ⟨fun h => ?_, h1 v⟩
    by_contra hv
    obtain ⟨u, _, h3, h4⟩ := hfrom v hv
    exact h3 (h4.trans h)
  refine ⟨?_, ?_, ?_, hfr⟩
  · intro v
    by_cases hv : lab v = -1
    · have : regionOf L' (L' v) = regionOf lab (lab v) := by
        ext x
        change L' x = L' v ↔ lab x = lab v
        rw [h1 v hv, hv, hfr]
      rw [this]; exact hc v
    · obtain ⟨i, hi⟩ := List.get_of_mem ((hmem (compLabels adj v) v).2 ⟨rfl, hv⟩)
      have hk := (h2 _ (compLabels_lt adj v)).1 i
      dsimp only at hk
      rw [hi] at hk
      refine ⟨⟨v, rfl⟩, ?_⟩
      have hsame : ∀ x, L' x = L' v →
          x ∈ shown (compArray adj lab (compLabels adj v)) := by
        intro x hx
        have hx0 : lab x ≠ -1 := by
          rw [Ne, ← hfr, hx, hfr]; exact hv
        obtain ⟨u, hu1, hu2, hu3⟩ := hfrom v hv
        obtain ⟨w, hw1, hw2, hw3⟩ := hfrom x hx0
        have huw : lab u = lab w := by rw [hu3, hw3, hx]
        have hp := (hc u).2 u rfl w huw.symm
        rw [hmem]
        refine ⟨?_, hx0⟩
        rw [← hw1, ← hu1]
        exact (compLabels_eq_iff adj _ _).2 (sameIsland_symm (pathIn_sameIsland hp))
      intro a ha b hb
      obtain ⟨ia, hia⟩ := List.get_of_mem (hsame a ha)
      obtain ⟨ib, hib⟩ := List.get_of_mem (hsame b hb)
      have ha' : L' a = L' v := ha
      have hb' : L' b = L' v := hb
      have := hk.2 ia (by change L' _ = _; rw [hia, ha']) ib (by change L' _ = _; rw [hib, hb'])
      rw [← hia, ← hib]
      exact pathIn_lift (fun i hi => hi) this
  · intro x
    constructor
    · rintro ⟨v, rfl⟩
      by_cases hv : lab v = -1
      · exact ⟨v, by rw [hv, h1 v hv]⟩
      · obtain ⟨u, _, _, hu⟩ := hfrom v hv
        exact ⟨u, hu⟩
    · rintro ⟨v, rfl⟩
      by_cases hv : lab v = -1
      · exact ⟨v, by rw [hv, h1 v hv]⟩
      · exact hto v hv
  · intro v
    by_cases hv : lab v = -1
    · exact ⟨v, .refl, by rw [hv, h1 v hv]⟩
    · obtain ⟨u, hu1, _, hu2⟩ := hfrom v hv
      exact ⟨u, (compLabels_eq_iff adj _ _).1 hu1, hu2⟩

/-- The clustering `fit` starts from: the given one, or one of those `generate_initial_sol` can
produce. -/
def StartsFrom {n : Nat} (adj : Adj n) (nRegions : Int) (initial : Option (Labels n))
    (lab : Labels n) : Prop :=
  AllContiguous adj lab ∧ (numRegions lab : Int) = nRegions ∧
    match initial with
    | some init => lab = init
    | none => ∀ v, 0 ≤ lab v ∧ lab v < nRegions

theorem forall₂_pure {n : Nat} (l : List (Labels n)) (ys : List (Labels n))
    (h : List.Forall₂ Yields (l.map fun y r => Res.ok (Yielded.array y, r)) ys) : ys = l := by
  induction l generalizing ys with
  | nil => cases h; rfl
  | cons y l ih =>
    rw [List.map_cons] at h
    cases h with
    | cons h1 h2 =>
      obtain ⟨r, r', h1⟩ := h1
      cases h1
      rw [ih _ h2]

theorem numRegions_Ico {n : Nat} {lab : Labels n} {p : Int} (h0 : 0 ≤ p)
    (h1 : ∀ v, 0 ≤ lab v ∧ lab v < p) (h2 : ∀ x, 0 ≤ x → x < p → ∃ v, lab v = x) :
    (numRegions lab : Int) = p := by
  have : Finset.univ.image lab = Finset.Ico (0 : Int) p := by
    ext x
    simp only [Finset.mem_image, Finset.mem_univ, true_and, Finset.mem_Ico]
    constructor
    · rintro ⟨v, rfl⟩; exact h1 v
    · rintro ⟨h3, h4⟩; exact h2 x h3 h4
  unfold numRegions
  rw [this, Int.card_Ico]
  omega

/-- The main theorem about `fit`: the result is what the component routine makes of a start
clustering. `hstep` says what is needed of the routine on each component of a possible start. -/
theorem fitWith_post {σ ρ : Type} {n : Nat} (o : MstOrder) {adj : Adj n} {attr : Fin n → ρ}
    {comp : CompFn σ n ρ} {S : σ → Prop}
    {Q : (idx : List (Fin n)) → Labels idx.length → Labels idx.length → Prop} {R T : Prop}
    (nRegions : Int) (initial : Option (Labels n))
    (hstart : ¬ R → match initial with
      | some init => AllContiguous adj init ∧ (numRegions init : Int) = nRegions
      | none => 0 < n ∧ nRegions ≤ n ∧ nRegions ≠ 1 ∧ (nComponents adj : Int) ≤ nRegions)
    (hstep : ∀ lab, StartsFrom adj nRegions initial lab → ∀ c, c < nComponents adj →
      StepOk adj attr comp S Q R T (compArray adj lab c))
    (st : σ) (hst : S st) (rng : Rng) :
    (fitWith o adj attr comp nRegions initial st rng).Post R T fun q =>
      S q.2.1 ∧ ∃ lab, StartsFrom adj nRegions initial lab ∧
        Fitted Q (separateComponents adj lab) (fun _ => -1) q.1 := by
  unfold fitWith
  cases initial with
  | some init =>
    dsimp only at hstart ⊢
    have hdec : assertFeasible init adj (some nRegions) = .ok () ∨
        ∃ m, assertFeasible init adj (some nRegions) = .raise (.valueError m) := by
      unfold assertFeasible
      dsimp only
      split_ifs
      · exact .inr ⟨_, rfl⟩
      · exact assertLoop_cases _ _ _
    have hiff : assertFeasible init adj (some nRegions) = .ok () ↔
        AllContiguous adj init ∧ (numRegions init : Int) = nRegions := by
      unfold assertFeasible
      dsimp only
      rw [length_unique_labels]
      by_cases h : (numRegions init : Int) = nRegions
      · rw [if_neg (not_not.2 h), assertLoop_ok_iff, allContiguous_iff]; simp [h]
      · rw [if_pos h]; simp [h]
    rcases hdec with h | ⟨m, h⟩
    · rw [h, Res.bind_ok]
      have hsf : StartsFrom adj nRegions (some init) init := ⟨(hiff.1 h).1, (hiff.1 h).2, rfl⟩
      apply (fitLoop_post (Q := Q) (R := R) (T := T) _ ?_ _ st rng hst).mono id id
      · rintro q ⟨hs, ys, hys, hf⟩
        rw [forall₂_pure _ _ hys] at hf
        exact ⟨hs, init, hsf, hf⟩
      · intro s hs r
        obtain ⟨y, hy, rfl⟩ := List.mem_map.1 hs
        refine ⟨y, r, rfl, ?_⟩
        rw [separateComponents_eq] at hy
        obtain ⟨c, hc, rfl⟩ := List.mem_map.1 hy
        exact hstep init hsf c (by simpa using hc)
    · rw [h, Res.bind_raise]
      by_contra hR
      have := hiff.2 (hstart hR)
      rw [h] at this; cases this
  | none =>
    dsimp only at hstart ⊢
    by_cases hok : 0 < n ∧ nRegions ≤ n ∧ nRegions ≠ 1 ∧ (nComponents adj : Int) ≤ nRegions
    · obtain ⟨hn, hp, hp1, hcomp⟩ := hok
      obtain ⟨gen, r', h1, h2, h3⟩ := generateInitialSol_spec o adj nRegions rng hn hp hp1 hcomp
      rw [h1, Res.bind_ok]
      have hsf : ∀ lab : Labels n, AllContiguous adj lab →
          (∀ v, 0 ≤ lab v ∧ lab v < nRegions) →
          (∀ x, 0 ≤ x → x < nRegions → ∃ v, lab v = x) → StartsFrom adj nRegions none lab :=
        fun lab e2 e3 e4 => ⟨e2, numRegions_Ico (by omega) e3 e4, e3⟩
      apply (fitLoop_post (Q := Q) (R := R) (T := T) _ ?_ _ st r' hst).mono id id
      · rintro q ⟨hs, ys, hys, hf⟩
        obtain ⟨lab, e1, e2, e3, e4⟩ := h3 ys hys
        subst e1
        exact ⟨hs, lab, hsf lab e2 e3 e4, hf⟩
      · intro s hs r
        obtain ⟨y, r1, hy⟩ := h2 s hs r
        refine ⟨y, r1, hy, ?_⟩
        -- complete the array to a full run of the generator
        obtain ⟨c, hc, rfl⟩ := List.mem_iff_getElem.1 hs
        choose f hf using fun i : Fin gen.length => h2 (gen.get i) (List.get_mem _ _) r
        let ys := (List.finRange gen.length).map fun i => if i.val = c then y else f i
        have hys : List.Forall₂ Yields gen ys := by
          rw [List.forall₂_iff_get]
          refine ⟨by simp [ys], ?_⟩
          intro i hi1 hi2
          simp only [ys, List.get_eq_getElem, List.getElem_map, List.getElem_finRange]
          split_ifs with hic
          · simp only [Fin.val_cast] at hic
            subst hic; exact ⟨r, r1, hy⟩
          · obtain ⟨r2, h⟩ := hf ⟨i, hi1⟩
            exact ⟨r, r2, h⟩
        obtain ⟨lab, e1, e2, e3, e4⟩ := h3 ys hys
        have hylen : ys.length = gen.length := by simp [ys]
        have hyc : ys[c]'(by rw [hylen]; exact hc) = y := by simp [ys]
        have hclt : c < nComponents adj := by
          rw [← separateComponents_length adj lab, ← e1, hylen]; exact hc
        have : y = compArray adj lab c := by
          rw [← hyc]
          have : ys[c]'(by rw [hylen]; exact hc) =
            (separateComponents adj lab)[c]'(by rw [separateComponents_length]; exact hclt) := by
            congr 1
          rw [this, separateComponents_getElem]; rfl
        rw [this]
        exact hstep lab (hsf lab e2 e3 e4) c hclt
    · have hR : R := by
        by_contra hR
        exact hok (hstart hR)
      unfold generateInitialSol
      split_ifs with g1 g2 g3 g4
      · exact hR
      · exact hR
      · exact hR
      · exact hR
      · exact absurd ⟨by omega, by omega, g3, by omega⟩ hok

end Region
