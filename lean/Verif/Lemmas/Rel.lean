import Verif.Model.MaxPHeu
/-
Two runs of the model side by side.
-/
namespace Region

/-- The two outcomes are the same, up to `R` for the values returned. -/
def Res.Rel {α β : Type} (R : α → β → Prop) : Res α → Res β → Prop
  | .ok a, .ok b => R a b
  | .raise e, .raise e' => e = e'
  | .timeout, .timeout => True
  | _, _ => False

namespace Res.Rel

theorem bind {α β γ δ : Type} {R : α → β → Prop} {S : γ → δ → Prop} {x : Res α} {y : Res β}
    {f : α → Res γ} {g : β → Res δ} (h : Rel R x y) (hfg : ∀ a b, R a b → Rel S (f a) (g b)) :
    Rel S (x >>= f) (y >>= g) := by
  cases x <;> cases y <;> first | exact hfg _ _ h | exact h | exact h.elim

theorem same {α γ δ : Type} {S : γ → δ → Prop} (x : Res α) {f : α → Res γ} {g : α → Res δ}
    (hfg : ∀ a, Rel S (f a) (g a)) : Rel S (x >>= f) (x >>= g) := by
  cases x <;> first | exact hfg _ | rfl | trivial

theorem refl {α : Type} {R : α → α → Prop} (h : ∀ a, R a a) (x : Res α) : Rel R x x := by
  cases x <;> first | exact h _ | rfl | trivial

theorem mono {α β : Type} {R S : α → β → Prop} {x : Res α} {y : Res β} (h : Rel R x y)
    (hRS : ∀ a b, R a b → S a b) : Rel S x y := by
  cases x <;> cases y <;> first | exact hRS _ _ h | exact h

theorem ok_left {α β : Type} {R : α → β → Prop} {a : α} {y : Res β} (h : Rel R (.ok a) y) :
    ∃ b, y = .ok b ∧ R a b := by
  cases y <;> first | exact ⟨_, rfl, h⟩ | exact h.elim

end Res.Rel

open Res

/-- What the component routines return is the same, up to the state of the strategy object. -/
def SameOut {α σ τ : Type} (SR : σ → τ → Prop) (x : α × σ × Rng) (y : α × τ × Rng) : Prop :=
  x.1 = y.1 ∧ SR x.2.1 y.2.1 ∧ x.2.2 = y.2.2

/-- Two strategy objects give the same answers. -/
def SameCalls {σ τ : Type} {k : Nat} (SR : σ → τ → Prop) (ops : StratOps σ k)
    (ops' : StratOps τ k) : Prop :=
  ∀ st st', SR st st' → ∀ a r labels rng,
    Rel (SameOut SR) (ops.call st a r labels rng) (ops'.call st' a r labels rng)

/-- Two strategy objects decide alike. -/
structure Alike {σ τ : Type} {k : Nat} (c : ℚ) (SR : σ → τ → Prop) (ops : StratOps σ k)
    (ops' : StratOps τ k) : Prop where
  pos : 0 < c
  call : SameCalls SR ops ops'
  objVal : ∀ st st', SR st st' → ops'.objVal st' = c * ops.objVal st

section azp
variable {σ τ : Type} {k : Nat} {c : ℚ} {SR : σ → τ → Prop} {ops : StratOps σ k}
  {ops' : StratOps τ k}

/-- The states of AZP correspond. -/
structure AzpState.Corr (SR : σ → τ → Prop) (s : AzpState σ k) (s' : AzpState τ k) : Prop where
  labels : s.labels = s'.labels
  nbrs : s.nbrs = s'.nbrs
  strat : SR s.strat s'.strat
  rng : s.rng = s'.rng

theorem applyMove_rel (adj : Adj k) (r : Int) (a : Fin k) {s : AzpState σ k} {s' : AzpState τ k}
    (h : s.Corr SR s') : Rel (AzpState.Corr SR) (applyMove adj r a s) (applyMove adj r a s') := by
  obtain ⟨l, nb, st, rg⟩ := s
  obtain ⟨l', nb', st', rg'⟩ := s'
  obtain ⟨h1, h2, h3, h4⟩ := h
  dsimp only at h1 h2 h3 h4
  subst h1 h2 h4
  unfold applyMove
  exact Rel.same _ fun n1 => Rel.same _ fun n2 => Rel.same _ fun n3 => Rel.same _ fun n4 =>
    ⟨rfl, rfl, h3, rfl⟩

theorem tryCandidates_rel (ho : SameCalls SR ops ops') (adj : Adj k) (r : Int) :
    ∀ (fuel : Nat) (cs : List (Fin k)) {s : AzpState σ k} {s' : AzpState τ k}, s.Corr SR s' →
      Rel (fun x y => x.1 = y.1 ∧ x.2.Corr SR y.2) (tryCandidates ops adj r fuel cs s)
        (tryCandidates ops' adj r fuel cs s') := by
  intro fuel
  induction fuel with
  | zero =>
    intro cs s s' h
    cases cs with
    | nil => exact ⟨rfl, h⟩
    | cons => trivial
  | succ fuel ih =>
    intro cs s s' h
    cases cs with
    | nil => exact ⟨rfl, h⟩
    | cons x xs =>
      unfold tryCandidates
      rw [← h.rng]
      refine Rel.same _ fun p => ?_
      obtain ⟨cand, rest, rng⟩ := p
      dsimp only
      rw [← h.labels]
      refine Rel.bind (ho _ _ h.strat cand r s.labels rng) ?_
      rintro ⟨b, st, rg⟩ ⟨b', st', rg'⟩ ⟨h1, h2, h3⟩
      dsimp only at h1 h2 h3 ⊢
      subst h1 h3
      have hc : AzpState.Corr SR { s with strat := st, rng := rg }
          { labels := s.labels, nbrs := s'.nbrs, strat := st', rng := rg } := ⟨rfl, h.nbrs, h2, rfl⟩
      cases b with
      | true =>
        refine Rel.bind (applyMove_rel adj r cand hc) ?_
        exact fun _ _ h => ⟨rfl, h⟩
      | false => exact ih rest hc

theorem growRegion_rel (ho : SameCalls SR ops ops') (adj : Adj k) (r : Int) :
    ∀ (fuel : Nat) {s : AzpState σ k} {s' : AzpState τ k}, s.Corr SR s' →
      Rel (AzpState.Corr SR) (growRegion ops adj r fuel s) (growRegion ops' adj r fuel s') := by
  intro fuel
  induction fuel with
  | zero => intro s s' h; trivial
  | succ fuel ih =>
    intro s s' h
    unfold growRegion
    rw [← h.nbrs]
    refine Rel.same _ fun border => ?_
    dsimp only
    rw [← h.labels]
    refine Rel.bind (tryCandidates_rel ho adj r _ _ h) ?_
    rintro ⟨b, t⟩ ⟨b', t'⟩ ⟨h1, h2⟩
    dsimp only at h1 h2 ⊢
    subst h1
    cases b with
    | true => exact ih h2
    | false => exact h2

theorem passRegions_rel (ho : SameCalls SR ops ops') (adj : Adj k) (fuel : Nat) :
    ∀ (m : Nat) (rs : List Int) {s : AzpState σ k} {s' : AzpState τ k}, s.Corr SR s' →
      Rel (AzpState.Corr SR) (passRegions ops adj fuel m rs s) (passRegions ops' adj fuel m rs s') := by
  intro m
  induction m with
  | zero =>
    intro rs s s' h
    cases rs with
    | nil => exact h
    | cons => trivial
  | succ m ih =>
    intro rs s s' h
    cases rs with
    | nil => exact h
    | cons x xs =>
      unfold passRegions
      rw [← h.rng]
      refine Rel.same _ fun p => ?_
      obtain ⟨r, rest, rng⟩ := p
      refine Rel.bind (growRegion_rel ho adj r fuel ⟨h.labels, h.nbrs, h.strat, rfl⟩) ?_
      exact fun _ _ h => ih rest h

theorem improving_scale (hc : 0 < c) (start : Option ℚ) (stop : ℚ) :
    improving (start.map (c * ·)) (c * stop) = improving start stop := by
  cases start with
  | none => rfl
  | some b => simp [improving, mul_lt_mul_iff_right₀ hc]

theorem azpOuter_rel (ho : Alike c SR ops ops') (adj : Adj k) (rs : List Int) (fuel : Nat) :
    ∀ (m : Nat) (start : Option ℚ) (stop : ℚ) {s : AzpState σ k} {s' : AzpState τ k}, s.Corr SR s' →
      Rel (AzpState.Corr SR) (azpOuter ops adj rs fuel m start stop s)
        (azpOuter ops' adj rs fuel m (start.map (c * ·)) (c * stop) s') := by
  intro m
  induction m with
  | zero =>
    intro start stop s s' h
    unfold azpOuter
    rw [improving_scale ho.pos]
    split_ifs
    · trivial
    · exact h
  | succ m ih =>
    intro start stop s s' h
    unfold azpOuter
    rw [improving_scale ho.pos]
    split_ifs
    · refine Rel.bind (passRegions_rel ho.call adj fuel _ _ h) ?_
      intro t t' ht
      rw [ho.objVal _ _ ht.strat]
      exact ih (some stop) _ ht
    · exact h

theorem azpComponent_rel (ho : Alike c SR ops ops') (adj : Adj k) (fuel : Nat) (init : Labels k)
    {st : σ} {st' : τ} (hst : SR st st') (rng : Rng) :
    Rel (SameOut SR) (azpComponent ops adj fuel init st rng)
      (azpComponent ops' adj fuel init st' rng) := by
  unfold azpComponent
  dsimp only
  split_ifs
  · exact ⟨rfl, hst, rfl⟩
  · rfl
  · rw [ho.objVal _ _ hst]
    refine Rel.bind (azpOuter_rel ho adj _ fuel fuel none _ ⟨rfl, rfl, hst, rfl⟩) ?_
    exact fun _ _ h => ⟨h.labels, h.strat, h.rng⟩

end azp

section fit
variable {σ τ : Type} {n : Nat} {ρ ρ' : Type} {SR : σ → τ → Prop}

/-- Two component routines behave alike on every part of the map. -/
def CompAlike (SR : σ → τ → Prop) (attr : Fin n → ρ) (attr' : Fin n → ρ')
    (comp : (idx : List (Fin n)) → Adj idx.length → Labels idx.length → (Fin idx.length → ρ) →
      σ → Rng → Res (Labels idx.length × σ × Rng))
    (comp' : (idx : List (Fin n)) → Adj idx.length → Labels idx.length → (Fin idx.length → ρ') →
      τ → Rng → Res (Labels idx.length × τ × Rng)) : Prop :=
  ∀ idx adj init st st' rng, SR st st' →
    Rel (SameOut SR) (comp idx adj init (fun i => attr (idx.get i)) st rng)
      (comp' idx adj init (fun i => attr' (idx.get i)) st' rng)

theorem fitLoop_rel {attr : Fin n → ρ} {attr' : Fin n → ρ'}
    {comp : (idx : List (Fin n)) → Adj idx.length → Labels idx.length → (Fin idx.length → ρ) →
      σ → Rng → Res (Labels idx.length × σ × Rng)}
    {comp' : (idx : List (Fin n)) → Adj idx.length → Labels idx.length → (Fin idx.length → ρ') →
      τ → Rng → Res (Labels idx.length × τ × Rng)}
    (hcomp : CompAlike SR attr attr' comp comp') (adj : Adj n) :
    ∀ (gen : Gen n) (labels : Labels n) (st : σ) (st' : τ) (rng : Rng), SR st st' →
      Rel (SameOut SR) (fitLoop adj attr comp gen labels st rng)
        (fitLoop adj attr' comp' gen labels st' rng) := by
  intro gen
  induction gen with
  | nil => intro labels st st' rng h; exact ⟨rfl, h, rfl⟩
  | cons g gs ih =>
    intro labels st st' rng h
    unfold fitLoop
    refine Rel.same _ fun p => ?_
    obtain ⟨y, rng⟩ := p
    cases y with
    | dict => rfl
    | array y =>
      dsimp only
      refine Rel.bind (R := SameOut SR) ?_ ?_
      · unfold fitStep
        refine Rel.bind (hcomp _ _ _ st st' rng h) ?_
        rintro ⟨l, s, r⟩ ⟨l', s', r'⟩ ⟨h1, h2, h3⟩
        dsimp only at h1 h2 h3 ⊢
        subst h1 h3
        exact ⟨rfl, h2, rfl⟩
      · rintro ⟨l, s, r⟩ ⟨l', s', r'⟩ ⟨h1, h2, h3⟩
        dsimp only at h1 h2 h3 ⊢
        subst h1 h3
        exact ih l s s' r h2

theorem fitWith_rel {attr : Fin n → ρ} {attr' : Fin n → ρ'}
    {comp : (idx : List (Fin n)) → Adj idx.length → Labels idx.length → (Fin idx.length → ρ) →
      σ → Rng → Res (Labels idx.length × σ × Rng)}
    {comp' : (idx : List (Fin n)) → Adj idx.length → Labels idx.length → (Fin idx.length → ρ') →
      τ → Rng → Res (Labels idx.length × τ × Rng)}
    (hcomp : CompAlike SR attr attr' comp comp') (o : MstOrder) (adj : Adj n) (p : Int)
    (initial : Option (Labels n)) {st : σ} {st' : τ} (h : SR st st') (rng : Rng) :
    Rel (SameOut SR) (fitWith o adj attr comp p initial st rng)
      (fitWith o adj attr' comp' p initial st' rng) := by
  unfold fitWith
  cases initial with
  | some init => exact Rel.same _ fun _ => fitLoop_rel hcomp adj _ _ _ _ _ h
  | none => exact Rel.same _ fun x => fitLoop_rel hcomp adj _ _ _ _ _ h

end fit

/-! ### Objectives in other units -/

/-- On these areas the second objective is the first one times `c`. -/
structure Scales {k : Nat} {ρ ρ' : Type} (c : ℚ) (obj : Objective ρ) (obj' : Objective ρ')
    (attr : Fin k → ρ) (attr' : Fin k → ρ') : Prop where
  call : ∀ labels, obj'.call labels attr' = c * obj.call labels attr
  update : ∀ a r labels, obj'.update a r labels attr' = (obj.update a r labels attr).map (c * ·)

/-- The same for every selection of areas of the map. -/
def ScalesOn {n : Nat} {ρ ρ' : Type} (c : ℚ) (obj : Objective ρ) (obj' : Objective ρ')
    (attr : Fin n → ρ) (attr' : Fin n → ρ') : Prop :=
  ∀ {k : Nat} (f : Fin k → Fin n), Scales c obj obj' (fun i => attr (f i)) fun i => attr' (f i)

theorem sum_map_scale {α : Type} (c : ℚ) (l : List α) (f g : α → ℚ) (h : ∀ x, g x = c * f x) :
    (l.map g).sum = c * (l.map f).sum := by
  induction l with
  | nil => simp
  | cons x xs ih => simp [ih, h, mul_add]

theorem pairwise_scales {k : Nat} {ρ ρ' : Type} {c : ℚ} {metric : ρ → ρ → ℚ} {metric' : ρ' → ρ' → ℚ}
    {attr : Fin k → ρ} {attr' : Fin k → ρ'}
    (h : ∀ i j, metric' (attr' i) (attr' j) = c * metric (attr i) (attr j)) :
    Scales c (pairwise metric) (pairwise metric') attr attr' := by
  constructor
  · intro labels
    change pairwiseCall metric' labels attr' = c * pairwiseCall metric labels attr
    unfold pairwiseCall
    rw [List.flatMap_def, List.flatMap_def, List.sum_flatten, List.sum_flatten, List.map_map,
      List.map_map]
    apply sum_map_scale
    intro r
    exact sum_map_scale c _ _ _ fun p => h _ _
  · intro a r labels
    change pairwiseUpdate metric' a r labels attr' = (pairwiseUpdate metric a r labels attr).map _
    have hd : ∀ r, distancesTo metric' labels attr' r a =
        (distancesTo metric labels attr r a).map (c * ·) := by
      intro r
      unfold distancesTo
      split_ifs
      · rfl
      · simp only [Option.map_some, Option.some.injEq]
        exact sum_map_scale c _ _ _ fun i => h _ _
    unfold pairwiseUpdate
    rw [hd, hd]
    cases distancesTo metric labels attr (labels a) a with
    | none => rfl
    | some x =>
      cases distancesTo metric labels attr r a with
      | none => rfl
      | some y => simp [mul_sub]

theorem centered_scales {k : Nat} {ρ ρ' : Type} {c : ℚ} {metric : ρ → ρ → ℚ}
    {metric' : ρ' → ρ' → ℚ} {center : List ρ → ρ} {center' : List ρ' → ρ'}
    {reduction : List ℚ → ℚ} (hred : ∀ l, reduction (l.map (c * ·)) = c * reduction l)
    {attr : Fin k → ρ} {attr' : Fin k → ρ'}
    (h : ∀ i (l : List (Fin k)), l ≠ [] → metric' (attr' i) (center' (l.map attr')) =
      c * metric (attr i) (center (l.map attr))) :
    Scales c (centered metric center reduction) (centered metric' center' reduction) attr attr' := by
  have hi : ∀ (labels : Labels k) r, intraregional metric' center' reduction labels r attr' =
      (intraregional metric center reduction labels r attr).map (c * ·) := by
    intro labels r
    unfold intraregional
    simp only [List.map_eq_nil_iff, List.map_map]
    split_ifs with hl
    · rfl
    · simp only [Option.map_some, Option.some.injEq, ← hred, List.map_map]
      congr 1
      refine List.map_congr_left fun i _ => ?_
      exact h i _ hl
  constructor
  · intro labels
    change centerCall metric' center' reduction labels attr' =
      c * centerCall metric center reduction labels attr
    unfold centerCall
    rw [← hred, List.map_map]
    congr 1
    refine List.map_congr_left fun r _ => ?_
    simp only [hi, Function.comp]
    cases intraregional metric center reduction labels r attr <;> simp
  · intro a r labels
    change (centerUpdate metric' center' reduction a r labels attr').1 =
      ((centerUpdate metric center reduction a r labels attr).1).map _
    unfold centerUpdate
    dsimp only
    rw [hi, hi, hi, hi]
    cases intraregional metric center reduction labels (labels a) attr with
    | none => rfl
    | some x =>
      cases intraregional metric center reduction labels r attr with
      | none => rfl
      | some y =>
        dsimp only [Option.map_some]
        cases intraregional metric center reduction (makeMove a r labels) (labels a) attr with
        | none => rfl
        | some z =>
          cases intraregional metric center reduction (makeMove a r labels) r attr with
          | none => rfl
          | some w =>
            simp only [Option.map_some, Option.some.injEq]
            have h1 := hred [z, w]
            have h2 := hred [x, y]
            simp only [List.map_cons, List.map_nil] at h1 h2
            rw [h1, h2, mul_sub]

/-! ### Strategies in other units -/

/-- The spatially extensive attributes and the threshold in other units, one for each column. -/
def QuotaTimes {n q : Nat} (s : Fin n → Fin q → ℚ) (thr : Fin q → ℚ) (s' : Fin n → Fin q → ℚ)
    (thr' : Fin q → ℚ) : Prop :=
  ∃ d : Fin q → ℚ, (∀ j, 0 < d j) ∧ (∀ i j, s' i j = d j * s i j) ∧ ∀ j, thr' j = d j * thr j

theorem QuotaTimes.refl {n q : Nat} (s : Fin n → Fin q → ℚ) (thr : Fin q → ℚ) :
    QuotaTimes s thr s thr :=
  ⟨fun _ => 1, fun _ => one_pos, fun _ _ => (one_mul _).symm, fun _ => (one_mul _).symm⟩

theorem QuotaTimes.maxpBlocks {n q k : Nat} {s s' : Fin n → Fin q → ℚ} {thr thr' : Fin q → ℚ}
    (h : QuotaTimes s thr s' thr') (idx : Fin k → Fin n) (a : Fin k) (labels : Labels k) :
    Strat.maxpBlocks (fun i => s' (idx i)) thr' a labels =
      Strat.maxpBlocks (fun i => s (idx i)) thr a labels := by
  obtain ⟨d, hd, hs, ht⟩ := h
  unfold Strat.maxpBlocks
  have h1 : ∀ j, (d j * s (idx a) j ≠ 0) ↔ s (idx a) j ≠ 0 := fun j => by simp [(hd j).ne']
  have h2 : ∀ j, (d j * thr j ≤ ((whereEq labels (labels a)).map fun i => d j * s (idx i) j).sum -
      d j * s (idx a) j) ↔
      thr j ≤ ((whereEq labels (labels a)).map fun i => s (idx i) j).sum - s (idx a) j := fun j => by
    rw [sum_map_scale (d j) _ _ _ fun _ => rfl, ← mul_sub, mul_le_mul_iff_right₀ (hd j)]
  simp only [hs, ht, h1, h2]

/-- The second strategy object is the first one with values and temperature times `c`, and the
columns of the spatially extensive attributes in other units. -/
def Strat.Times {n q : Nat} (c : ℚ) : Strat n q → Strat n q → Prop
  | .azp v, .azp v' => v' = c * v
  | .sa t term m v al mm, .sa t' term' m' v' al' mm' =>
    t' = c * t ∧ term' = term ∧ m' = m ∧ v' = c * v ∧ al' = al ∧ mm' = mm
  | .maxp s thr v i, .maxp s' thr' v' i' => QuotaTimes s thr s' thr' ∧ v' = c * v ∧ Times c i i'
  | _, _ => False

theorem Strat.Times.objVal {n q : Nat} {c : ℚ} {s s' : Strat n q} (h : Strat.Times c s s') :
    s'.objVal = c * s.objVal := by
  cases s <;> cases s' <;> first
    | exact h.elim
    | exact h
    | exact h.2.2.2.1
    | exact h.2.1

theorem Strat.Times.start {n q : Nat} {c v : ℚ} {s s' : Strat n q} (h : Strat.Times c s s') :
    Strat.Times c (s.start v) (s'.start (c * v)) := by
  induction s generalizing s' with
  | azp _ => cases s' <;> first | exact h.elim | rfl
  | sa t term m w al mm =>
    cases s' with
    | sa => exact ⟨h.1, h.2.1, h.2.2.1, rfl, h.2.2.2.2⟩
    | azp => exact h.elim
    | maxp => exact h.elim
  | maxp s thr w i ih =>
    cases s' with
    | sa => exact h.elim
    | azp => exact h.elim
    | maxp => exact ⟨h.1, rfl, ih h.2.2⟩

theorem acceptProb_scale (expf : ℚ → ℚ) {c : ℚ} (hc : 0 < c) (d t : ℚ) :
    Strat.acceptProb expf (c * d) (c * t) = Strat.acceptProb expf d t := by
  unfold Strat.acceptProb
  have h0 : c * t = 0 ↔ t = 0 := by simp [hc.ne']
  simp only [h0]
  split_ifs with ht
  · rfl
  · rw [← mul_neg, mul_div_mul_left _ _ hc.ne']

theorem strat_alike {n q k : Nat} {ρ ρ' : Type} (expf : ℚ → ℚ) (idx : Fin k → Fin n) {c : ℚ}
    (hc : 0 < c) {obj : Objective ρ} {obj' : Objective ρ'} {attr : Fin k → ρ} {attr' : Fin k → ρ'}
    (h : Scales c obj obj' attr attr') :
    Alike c (Strat.Times c) (Strat.ops (q := q) expf idx attr obj)
      (Strat.ops expf idx attr' obj') where
  pos := hc
  objVal _ _ h := h.objVal
  call := by
    intro st
    have hle : ∀ d : ℚ, c * d ≤ 0 ↔ d ≤ 0 := fun d => by
      constructor
      · intro h; by_contra hd; push Not at hd
        exact absurd h (not_le.2 (mul_pos hc hd))
      · intro h; exact mul_nonpos_of_nonneg_of_nonpos hc.le h
    induction st with
    | azp v =>
      intro st' hst a r labels rng
      cases st' with
      | sa => exact hst.elim
      | maxp => exact hst.elim
      | azp v' =>
        have hv : v' = c * v := hst
        subst hv
        simp only [Strat.ops, Strat.call, h.update]
        cases obj.update a r labels attr with
        | none => rfl
        | some d =>
          simp only [Option.map_some, hle]
          split_ifs
          · exact ⟨rfl, by change c * v + c * d = c * (v + d); ring, rfl⟩
          · exact ⟨rfl, rfl, rfl⟩
    | sa t term m v al mm =>
      intro st' hst a r labels rng
      cases st' with
      | azp => exact hst.elim
      | maxp => exact hst.elim
      | sa t' term' m' v' al' mm' =>
        obtain ⟨rfl, rfl, rfl, rfl, rfl, rfl⟩ := hst
        simp only [Strat.ops, Strat.call, h.update]
        cases obj.update a r labels attr with
        | none => rfl
        | some d =>
          simp only [Option.map_some, hle, acceptProb_scale expf hc]
          have hadd : c * v + c * d = c * (v + d) := by ring
          split_ifs
          · exact ⟨rfl, ⟨rfl, rfl, rfl, hadd, rfl, rfl⟩, rfl⟩
          · rcases Strat.randomLt (Strat.acceptProb expf d t) rng with ⟨b, r'⟩
            cases b with
            | true => exact ⟨rfl, ⟨rfl, rfl, rfl, hadd, rfl, rfl⟩, rfl⟩
            | false => exact ⟨rfl, ⟨rfl, rfl, rfl, rfl, rfl, rfl⟩, rfl⟩
    | maxp s thr v i ih =>
      intro st' hst a r labels rng
      cases st' with
      | azp => exact hst.elim
      | sa => exact hst.elim
      | maxp s' thr' v' i' =>
        obtain ⟨hq, rfl, hi⟩ := hst
        have := ih i' hi a r labels rng
        simp only [Strat.ops, Strat.call, hq.maxpBlocks] at this ⊢
        split_ifs
        · exact ⟨rfl, ⟨hq, rfl, hi⟩, rfl⟩
        · revert this
          generalize Strat.call expf idx attr obj i a r labels rng = x
          generalize Strat.call expf idx attr' obj' i' a r labels rng = y
          intro this
          cases x <;> cases y <;> first
            | exact this.elim
            | exact this
            | exact ⟨this.1, ⟨hq, rfl, this.2.1⟩, this.2.2⟩

/-- AZP in other units. -/
theorem azpFit_rel {n q : Nat} {ρ ρ' : Type} (o : MstOrder) (expf : ℚ → ℚ) {c : ℚ} (hc : 0 < c)
    {obj : Objective ρ} {obj' : Objective ρ'} {attr : Fin n → ρ} {attr' : Fin n → ρ'}
    (h : ScalesOn c obj obj' attr attr') (fuel : Nat) (adj : Adj n) (p : Int)
    (initial : Option (Labels n)) {st st' : Strat n q} (hst : Strat.Times c st st') (rng : Rng) :
    Rel (SameOut (Strat.Times c)) (azpFit o expf obj fuel adj attr p initial st rng)
      (azpFit o expf obj' fuel adj attr' p initial st' rng) := by
  refine fitWith_rel ?_ o adj p initial hst rng
  intro idx adj init st st' rng hst
  unfold azpComp
  rw [(h fun i => idx.get i).call]
  exact azpComponent_rel (strat_alike expf _ hc (h _)) adj fuel init hst.start rng

/-! ### Simulated annealing -/

section sa
variable {n : Nat} {c : ℚ} {azp azp' : Option (Labels n) → Strat n 0 → Rng → Res (Labels n × Strat n 0 × Rng)}

theorem Strat.Times.saAlert {q : Nat} {s s' : Strat n q} (h : Strat.Times c s s') :
    s'.saAlert = s.saAlert := by
  cases s <;> cases s' <;> first | exact h.elim | rfl | exact h.2.2.2.2.1

theorem Strat.Times.saMoveMade {q : Nat} {s s' : Strat n q} (h : Strat.Times c s s') :
    s'.saMoveMade = s.saMoveMade := by
  cases s <;> cases s' <;> first | exact h.elim | rfl | exact h.2.2.2.2.2

theorem Strat.Times.saReset {q : Nat} {s s' : Strat n q} (h : Strat.Times c s s') :
    Strat.Times c s.saReset s'.saReset := by
  cases s <;> cases s' <;> first
    | exact h.elim
    | exact ⟨h.1, h.2.1, rfl, h.2.2.2.1, rfl, h.2.2.2.2.2⟩
    | exact h

theorem Strat.Times.saSetTemperature {q : Nat} {s s' : Strat n q} (h : Strat.Times c s s') (t : ℚ) :
    Strat.Times c (s.saSetTemperature t) (s'.saSetTemperature (c * t)) := by
  cases s <;> cases s' <;> first
    | exact h.elim
    | exact ⟨rfl, h.2⟩
    | exact h

theorem Strat.Times.saSetMoveMade {q : Nat} {s s' : Strat n q} (h : Strat.Times c s s') (b : Bool) :
    Strat.Times c (s.saSetMoveMade b) (s'.saSetMoveMade b) := by
  cases s <;> cases s' <;> first
    | exact h.elim
    | exact ⟨h.1, h.2.1, h.2.2.1, h.2.2.2.1, h.2.2.2.2.1, rfl⟩
    | exact h

theorem saInner_rel (hazp : ∀ cur st st' rng, Strat.Times c st st' →
      Rel (SameOut (Strat.Times c)) (azp cur st rng) (azp' cur st' rng)) (maxIt : Option Int) :
    ∀ (fuel it : Nat) (cur : Option (Labels n)) (st st' : Strat n 0) (rng : Rng),
      Strat.Times c st st' → Rel (SameOut (Strat.Times c)) (saInner azp maxIt fuel it cur st rng)
        (saInner azp' maxIt fuel it cur st' rng) := by
  intro fuel
  induction fuel with
  | zero =>
    intro it cur st st' rng h
    unfold saInner
    rw [h.saAlert]
    split_ifs
    · trivial
    · exact ⟨rfl, h, rfl⟩
  | succ fuel ih =>
    intro it cur st st' rng h
    unfold saInner
    rw [h.saAlert]
    split_ifs
    · refine Rel.bind (hazp cur st st' rng h) ?_
      rintro ⟨l, s, r⟩ ⟨l', s', r'⟩ ⟨h1, h2, h3⟩
      dsimp only at h1 h2 h3 ⊢
      subst h1 h3
      cases cur with
      | none => exact ih _ _ _ _ _ h2
      | some old =>
        dsimp only
        split_ifs
        · exact ⟨rfl, h2, rfl⟩
        · exact ih _ _ _ _ _ h2
    · exact ⟨rfl, h, rfl⟩

/-- The parameters with another initial temperature. -/
def SaParams.withTemperature (P : SaParams) (t : ℚ) : SaParams := { P with initTemperature := t }

theorem saOuter_rel (hazp : ∀ cur st st' rng, Strat.Times c st st' →
      Rel (SameOut (Strat.Times c)) (azp cur st rng) (azp' cur st' rng)) (P : SaParams) (t0 cooling : ℚ)
    (innerFuel : Nat) :
    ∀ (fuel : Nat) (t : ℚ) (nm : Nat) (cur : Option (Labels n)) (visited : List (List Int))
      (st st' : Strat n 0) (rng : Rng), Strat.Times c st st' →
      Rel (fun x y => x.1 = y.1 ∧ x.2.1 = y.2.1 ∧ Strat.Times c x.2.2.1 y.2.2.1 ∧ x.2.2.2 = y.2.2.2)
        (saOuter azp P cooling innerFuel fuel t nm cur visited st rng)
        (saOuter azp' (P.withTemperature t0) cooling innerFuel fuel (c * t) nm cur visited st' rng) := by
  intro fuel
  induction fuel with
  | zero =>
    intro t nm cur visited st st' rng h
    unfold saOuter
    change Rel _ _ (if (nm : Int) < P.nonmovingSteps then _ else _)
    split_ifs
    · trivial
    · exact ⟨rfl, rfl, h, rfl⟩
  | succ fuel ih =>
    intro t nm cur visited st st' rng h
    unfold saOuter
    change Rel _ _ (if (nm : Int) < P.nonmovingSteps then _ else _)
    split_ifs
    · refine Rel.bind (saInner_rel hazp P.maxIt innerFuel 0 cur _ _ rng h.saReset) ?_
      rintro ⟨l, s, r⟩ ⟨l', s', r'⟩ ⟨h1, h2, h3⟩
      dsimp only at h1 h2 h3 ⊢
      subst h1 h3
      cases l with
      | none => rfl
      | some L =>
        have hs := h2.saSetTemperature (t * cooling)
        rw [← mul_assoc] at hs
        dsimp only
        rw [hs.saMoveMade]
        change Rel _ _ (if P.repsBeforeTermination ≤ _ then _ else _)
        split_ifs
        · exact ⟨rfl, rfl, h2, rfl⟩
        · have := ih (t * cooling) nm (some L) (visited ++ [arrayList L]) _ _ r
            (hs.saSetMoveMade false)
          rwa [← mul_assoc] at this
        · have := ih (t * cooling) (nm + 1) (some L) (visited ++ [arrayList L]) _ _ r hs
          rwa [← mul_assoc] at this
    · exact ⟨rfl, rfl, h, rfl⟩

theorem saFit_rel {ρ ρ' : Type} (o : MstOrder) (expf : ℚ → ℚ) (hc : 0 < c)
    {obj : Objective ρ} {obj' : Objective ρ'} {attr : Fin n → ρ} {attr' : Fin n → ρ'}
    (h : ScalesOn c obj obj' attr attr') (outerFuel innerFuel azpFuel : Nat) (P : SaParams)
    (self : SaObj) (adj : Adj n) (p : Int) (initial : Option (Labels n)) (cooling : ℚ) (rng : Rng) :
    Rel (fun x y => x.1 = y.1 ∧ x.2.1 = y.2.1 ∧ Strat.Times c x.2.2.1 y.2.2.1 ∧ x.2.2.2 = y.2.2.2)
      (saFit o expf obj outerFuel innerFuel azpFuel P self adj attr p initial cooling rng)
      (saFit o expf obj' outerFuel innerFuel azpFuel (P.withTemperature (c * P.initTemperature))
        self adj attr' p initial cooling rng) := by
  unfold saFit
  split_ifs
  swap
  · rfl
  · refine Rel.bind (R := Strat.Times c) ?_ ?_
    · change Rel _ _ (newSaStrategy (c * P.initTemperature) P.saMovesTerm)
      unfold newSaStrategy
      cases P.saMovesTerm with
      | nonIntegral => rfl
      | int i =>
        dsimp only
        split_ifs
        · rfl
        · exact ⟨rfl, rfl, rfl, (mul_zero c).symm, rfl, rfl⟩
    · intro st st' hst
      refine Rel.bind (saOuter_rel (fun cur st st' rng hs =>
        azpFit_rel o expf hc h azpFuel adj p cur hs rng) P _ cooling innerFuel outerFuel
        P.initTemperature 0 initial self.visited _ _ rng (hst.saSetMoveMade self.moveMade)) ?_
      rintro ⟨L, v, s, r⟩ ⟨L', v', s', r'⟩ ⟨h1, h2, h3, h4⟩
      dsimp only at h1 h2 h3 h4 ⊢
      subst h1 h2 h4
      refine ⟨rfl, ?_, h3, rfl⟩
      change SaObj.mk _ _ = SaObj.mk _ _
      rw [h3.saMoveMade]

end sa

end Region
