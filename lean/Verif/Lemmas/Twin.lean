import Verif.Lemmas.Reads
/-
Two programs which do the same on all tapes of a kind, the kind being kept by drawing.  Used to compare
annealing with two functions in place of the exponential function.
-/
namespace Region

/-- On every tape of kind `G` the programs `f` and `g` do the same, and they leave the tape without what they
drew. -/
def Twin (G : Rng → Prop) {α β : Type} (mk : α → Rng → β) (f g : Rng → Res β) : Prop :=
  ∀ r, G r → f r = g r ∧ ∃ k, ∃ out : Res α, f r = out >>= fun a => .ok (mk a (r.drop k))

namespace Twin
variable {G : Rng → Prop} {α β γ δ : Type} {mk : α → Rng → β} {mk' : γ → Rng → δ}

theorem refl {f : Rng → Res β} (h : Reads mk f) : Twin G mk f f := fun r _ => by
  obtain ⟨k, out, h⟩ := h r
  exact ⟨rfl, k, out, h r fun _ _ => rfl⟩

theorem pure (a : α) : Twin G mk (fun r => .ok (mk a r)) fun r => .ok (mk a r) := refl (Reads.pure a)

theorem raise (e : Exc) : Twin G mk (fun _ => .raise e) fun _ => .raise e := refl (Reads.raise e)

theorem timeout : Twin G mk (fun _ => .timeout) fun _ => .timeout := refl Reads.timeout

theorem bind (hG : ∀ r k, G r → G (r.drop k)) {f f' : Rng → Res β} {g g' : β → Res δ} (hf : Twin G mk f f')
    (hg : ∀ a, Twin G mk' (fun r => g (mk a r)) fun r => g' (mk a r)) :
    Twin G mk' (fun r => f r >>= g) fun r => f' r >>= g' := by
  intro r hr
  obtain ⟨h1, k, out, h2⟩ := hf r hr
  dsimp only
  rw [← h1, h2]
  cases out with
  | ok a =>
    simp only [Res.bind_ok]
    obtain ⟨h3, k', out', h4⟩ := hg a (r.drop k) (hG r k hr)
    refine ⟨h3, k + k', out', ?_⟩
    rw [Rng.drop_drop] at h4
    exact h4
  | raise e => exact ⟨rfl, k, .raise e, rfl⟩
  | timeout => exact ⟨rfl, k, .timeout, rfl⟩

/-- As `bind`, with something known of what the first part returns. -/
theorem bind_of (hG : ∀ r k, G r → G (r.drop k)) {f f' : Rng → Res β} {g g' : β → Res δ}
    (hf : Twin G mk f f') (P : α → Prop) (hP : ∀ r k a, f r = .ok (mk a (r.drop k)) →
      ∃ a', P a' ∧ ∀ r, mk a r = mk a' r)
    (hg : ∀ a, P a → Twin G mk' (fun r => g (mk a r)) fun r => g' (mk a r)) :
    Twin G mk' (fun r => f r >>= g) fun r => f' r >>= g' := by
  intro r hr
  obtain ⟨h1, k, out, h2⟩ := hf r hr
  dsimp only
  rw [← h1]
  cases out with
  | ok a =>
    simp only [Res.bind_ok] at h2
    obtain ⟨a', hp, ha⟩ := hP r k a h2
    rw [h2, ha]
    simp only [Res.bind_ok]
    obtain ⟨h3, k', out', h4⟩ := hg a' hp (r.drop k) (hG r k hr)
    refine ⟨h3, k + k', out', ?_⟩
    rw [Rng.drop_drop] at h4
    exact h4
  | raise e => rw [h2]; exact ⟨rfl, k, .raise e, rfl⟩
  | timeout => rw [h2]; exact ⟨rfl, k, .timeout, rfl⟩

theorem then_ {α : Type} (x : Res α) {g g' : α → Rng → Res δ} (hg : ∀ a, Twin G mk' (g a) (g' a)) :
    Twin G mk' (fun r => x >>= fun a => g a r) fun r => x >>= fun a => g' a r := by
  cases x with
  | ok a => exact hg a
  | raise e => exact raise e
  | timeout => exact timeout

theorem ite {c : Prop} {inst inst' : Rng → Decidable c} {f g f' g' : Rng → Res β}
    (hf : c → Twin G mk f f') (hg : ¬ c → Twin G mk g g') :
    Twin G mk (fun r => @_root_.ite _ c (inst r) (f r) (g r))
      fun r => @_root_.ite _ c (inst' r) (f' r) (g' r) := by
  by_cases h : c
  · simpa only [if_pos h] using hf h
  · simpa only [if_neg h] using hg h

end Twin

section azp
variable {G : Rng → Prop} (hG : ∀ r k, G r → G (r.drop k)) {σ : Type} {k : Nat} {ops ops' : StratOps σ k}
  (ho : ∀ st a r labels, Twin G mk2 (ops.call st a r labels) (ops'.call st a r labels))
  (hv : ops.objVal = ops'.objVal) (adj : Adj k)
include hG ho

theorem tryCandidates_twin (x : Int) : ∀ (fuel : Nat) (cs : List (Fin k)) (s : AzpState σ k),
    Twin G (fun (p : Bool × AzpState σ k) r => (p.1, mkA p.2 r))
      (fun r => tryCandidates ops adj x fuel cs { s with rng := r })
      fun r => tryCandidates ops' adj x fuel cs { s with rng := r }
  | fuel, [], s => by
    unfold tryCandidates
    exact Twin.pure (mk := fun (p : Bool × AzpState σ k) r => (p.1, mkA p.2 r)) (false, s)
  | 0, c :: cs, s => by
    unfold tryCandidates
    exact Twin.timeout
  | fuel + 1, c :: cs, s => by
    unfold tryCandidates
    dsimp only
    refine Twin.bind hG (Twin.refl (popRandomlyFrom_reads (c :: cs))) fun y => ?_
    dsimp only [mk2]
    refine Twin.bind hG (ho s.strat y.1 x s.labels) fun z => ?_
    dsimp only [mk2]
    refine Twin.ite (fun _ => ?_) fun _ => ?_
    · refine Twin.bind hG (Twin.refl (applyMove_reads adj x y.1 { s with strat := z.2 })) fun s' => ?_
      exact Twin.pure (mk := fun (p : Bool × AzpState σ k) r => (p.1, mkA p.2 r)) (true, s')
    · exact tryCandidates_twin x fuel y.2 { s with strat := z.2 }

theorem growRegion_twin (x : Int) : ∀ (fuel : Nat) (s : AzpState σ k),
    Twin G mkA (fun r => growRegion ops adj x fuel { s with rng := r })
      fun r => growRegion ops' adj x fuel { s with rng := r }
  | 0, s => by
    unfold growRegion
    exact Twin.timeout
  | fuel + 1, s => by
    unfold growRegion
    dsimp only
    refine Twin.then_ _ fun border => ?_
    try dsimp only
    refine Twin.bind hG (tryCandidates_twin hG ho adj x _ _ s) fun y => ?_
    dsimp only
    exact Twin.ite (fun _ => growRegion_twin x fuel y.2) fun _ => Twin.pure _

theorem passRegions_twin (fuel : Nat) : ∀ (m : Nat) (l : List Int) (s : AzpState σ k),
    Twin G mkA (fun r => passRegions ops adj fuel m l { s with rng := r })
      fun r => passRegions ops' adj fuel m l { s with rng := r }
  | m, [], s => by
    unfold passRegions
    exact Twin.pure (mk := mkA) s
  | 0, c :: cs, s => by
    unfold passRegions
    exact Twin.timeout
  | m + 1, c :: cs, s => by
    unfold passRegions
    dsimp only
    refine Twin.bind hG (Twin.refl (popRandomlyFrom_reads (c :: cs))) fun y => ?_
    dsimp only [mk2]
    exact Twin.bind hG (growRegion_twin hG ho adj y.1 fuel s) fun s' => passRegions_twin fuel m y.2 s'

include hv

theorem azpOuter_twin (regions : List Int) (fuel : Nat) : ∀ (m : Nat) (start : Option ℚ) (stop : ℚ)
    (s : AzpState σ k), Twin G mkA (fun r => azpOuter ops adj regions fuel m start stop { s with rng := r })
      fun r => azpOuter ops' adj regions fuel m start stop { s with rng := r }
  | 0, start, stop, s => by
    unfold azpOuter
    exact Twin.ite (fun _ => Twin.timeout) fun _ => Twin.pure (mk := mkA) s
  | m + 1, start, stop, s => by
    unfold azpOuter
    dsimp only
    refine Twin.ite (fun _ => ?_) fun _ => Twin.pure (mk := mkA) s
    refine Twin.bind hG (passRegions_twin hG ho adj fuel _ regions s) fun s' => ?_
    rw [hv]
    exact azpOuter_twin regions fuel m (some stop) (ops'.objVal s'.strat) s'

theorem azpComponent_twin (fuel : Nat) (init : Labels k) (st : σ) :
    Twin G mk2 (fun rng => azpComponent ops adj fuel init st rng)
      fun rng => azpComponent ops' adj fuel init st rng := by
  unfold azpComponent
  dsimp only
  rw [hv]
  refine Twin.ite (fun _ => Twin.pure (mk := mk2) (init, st)) fun _ =>
    Twin.ite (fun _ => Twin.raise _) fun _ => ?_
  refine Twin.bind hG (azpOuter_twin hG ho hv adj _ fuel fuel none _
    ⟨init, initNbrs adj init (uniqueSorted (arrayList init)), st, fun _ => 0⟩) fun s => ?_
  exact Twin.pure (mk := mk2) (s.labels, s.strat)

end azp

section fit
variable {G : Rng → Prop} (hG : ∀ r k, G r → G (r.drop k)) {σ : Type} {n : Nat} {ρ : Type} (adj : Adj n)
  (attr : Fin n → ρ)
  {comp comp' : (idx : List (Fin n)) → Adj idx.length → Labels idx.length → (Fin idx.length → ρ) →
      σ → Rng → Res (Labels idx.length × σ × Rng)}
  (hc : ∀ idx a init at' st, Twin G mk2 (comp idx a init at' st) (comp' idx a init at' st))
include hG hc

theorem fitStep_twin (y labels : Labels n) (st : σ) :
    Twin G mk2 (fun rng => fitStep adj attr comp y labels st rng)
      fun rng => fitStep adj attr comp' y labels st rng := by
  unfold fitStep
  dsimp only
  exact Twin.bind hG (hc _ _ _ _ _) fun x => Twin.pure (mk := mk2)
    (scatter (List.filter (fun i => decide (y i ≠ -1)) (List.finRange n)) x.1 labels, x.2)

theorem fitLoop_twin : ∀ (gen : Gen n) (_ : ∀ step ∈ gen, Reads mk1 step) (labels : Labels n)
    (st : σ), Twin G mk2 (fun rng => fitLoop adj attr comp gen labels st rng)
      fun rng => fitLoop adj attr comp' gen labels st rng
  | [], _, labels, st => by
    unfold fitLoop
    exact Twin.pure (mk := mk2) (labels, st)
  | step :: steps, hs, labels, st => by
    unfold fitLoop
    refine Twin.bind hG (Twin.refl (hs step (by simp))) fun y => ?_
    dsimp only [mk1]
    cases y with
    | dict => exact Twin.raise _
    | array y =>
      exact Twin.bind hG (fitStep_twin hG adj attr hc y labels st) fun z =>
        fitLoop_twin steps (fun s h => hs s (by simp [h])) z.1 z.2

theorem fitWith_twin (o : MstOrder) (p : Int) (initial : Option (Labels n)) (st : σ) :
    Twin G mk2 (fun rng => fitWith o adj attr comp p initial st rng)
      fun rng => fitWith o adj attr comp' p initial st rng := by
  cases initial with
  | some init =>
    unfold fitWith
    dsimp only
    refine Twin.then_ _ fun _ => fitLoop_twin hG adj attr hc _ ?_ _ _
    intro step h
    obtain ⟨y, -, rfl⟩ := List.mem_map.1 h
    exact Reads.pure (mk := mk1) (Yielded.array y)
  | none =>
    unfold fitWith
    dsimp only
    refine Twin.bind_of hG (Twin.refl (generateInitialSol_reads o adj p))
      (fun gen => ∀ step ∈ gen, Reads mk1 step)
      (fun r k gen h => ⟨gen, generateInitialSol_steps h, fun _ => rfl⟩) fun gen hgen => ?_
    exact fitLoop_twin hG adj attr hc gen hgen _ _

end fit

section sa
variable {G : Rng → Prop} (hG : ∀ r k, G r → G (r.drop k)) {n : Nat}
  {azp azp' : Option (Labels n) → Strat n 0 → Rng → Res (Labels n × Strat n 0 × Rng)}
  (ha : ∀ cur st, Twin G mk2 (azp cur st) (azp' cur st))
include hG ha

theorem saInner_twin (maxIt : Option Int) : ∀ (fuel it : Nat) (cur : Option (Labels n))
    (st : Strat n 0), Twin G mk2 (fun rng => saInner azp maxIt fuel it cur st rng)
      fun rng => saInner azp' maxIt fuel it cur st rng
  | 0, it, cur, st => by
    unfold saInner
    exact Twin.ite (fun _ => Twin.timeout) fun _ => Twin.pure (mk := mk2) (cur, st)
  | fuel + 1, it, cur, st => by
    unfold saInner
    dsimp only
    refine Twin.ite (fun _ => ?_) fun _ => Twin.pure (mk := mk2) (cur, st)
    refine Twin.bind hG (ha cur st) fun y => ?_
    dsimp only [mk2]
    cases cur with
    | none => exact saInner_twin maxIt fuel (it + 1) (some y.1) y.2
    | some old =>
      exact Twin.ite (fun _ => Twin.pure (mk := mk2) (some y.1, y.2))
        fun _ => saInner_twin maxIt fuel (it + 1) (some y.1) y.2

theorem saOuter_twin (P : SaParams) (cooling : ℚ) (f : Nat) : ∀ (fuel : Nat) (t : ℚ) (nm : Nat)
    (cur : Option (Labels n)) (visited : List (List Int)) (st : Strat n 0),
    Twin G mk3 (fun rng => saOuter azp P cooling f fuel t nm cur visited st rng)
      fun rng => saOuter azp' P cooling f fuel t nm cur visited st rng
  | 0, t, nm, cur, visited, st => by
    unfold saOuter
    exact Twin.ite (fun _ => Twin.timeout) fun _ => Twin.pure (mk := mk3) (cur, visited, st)
  | fuel + 1, t, nm, cur, visited, st => by
    unfold saOuter
    dsimp only
    refine Twin.ite (fun _ => ?_) fun _ => Twin.pure (mk := mk3) (cur, visited, st)
    refine Twin.bind hG (saInner_twin hG ha P.maxIt f 0 cur st.saReset) fun y => ?_
    dsimp only [mk2]
    obtain ⟨_ | L, st'⟩ := y
    · exact Twin.raise _
    · dsimp only
      refine Twin.ite (fun _ => Twin.pure (mk := mk3) (some L, visited, st')) fun _ =>
        Twin.ite (fun _ => saOuter_twin P cooling f fuel _ _ _ _ _)
          fun _ => saOuter_twin P cooling f fuel _ _ _ _ _

end sa

/-! ### Cutting off small probabilities -/

/-- All random numbers in `[0, 1)` the tape gives are at least `lo`. -/
def Rng.AtLeast (lo : ℚ) (r : Rng) : Prop := ∀ i, lo ≤ ((r i % 2 ^ 53 : Nat) : ℚ) / 2 ^ 53

theorem Rng.AtLeast.drop {lo : ℚ} (r : Rng) (k : Nat) (h : r.AtLeast lo) : (r.drop k).AtLeast lo :=
  fun i => h (i + k)

/-- Probabilities up to `lo` are replaced by 0. -/
def cutOff (lo : ℚ) (expf : ℚ → ℚ) (x : ℚ) : ℚ := if expf x ≤ lo then 0 else expf x

theorem randomLt_cutOff {lo : ℚ} {expf : ℚ → ℚ} {d t : ℚ} {r : Rng} (h : r.AtLeast lo) :
    Strat.randomLt (Strat.acceptProb expf d t) r = Strat.randomLt (Strat.acceptProb (cutOff lo expf) d t) r := by
  unfold Strat.randomLt Strat.acceptProb
  congr 1
  split_ifs with ht
  · rfl
  · unfold cutOff
    split_ifs with hc
    · have h0 := h 0
      rw [decide_eq_decide]
      refine iff_of_false (not_lt.2 (hc.trans h0)) (not_lt.2 ?_)
      exact div_nonneg (Nat.cast_nonneg _) (by norm_num)
    · rfl

section
variable {lo : ℚ}

theorem strat_call_cutOff {n q : Nat} {ρ : Type} (expf : ℚ → ℚ) {k : Nat} (idx : Fin k → Fin n)
    (attr : Fin k → ρ) (obj : Objective ρ) : ∀ (st : Strat n q) (a : Fin k) (x : Int)
    (labels : Labels k) (r : Rng), r.AtLeast lo →
      st.call expf idx attr obj a x labels r = st.call (cutOff lo expf) idx attr obj a x labels r
  | .azp v, a, x, labels, r, h => rfl
  | .sa t term m v al mm, a, x, labels, r, h => by
    unfold Strat.call
    cases obj.update a x labels attr with
    | none => rfl
    | some d => dsimp only; rw [randomLt_cutOff h]
  | .maxp spat thr v inner, a, x, labels, r, h => by
    unfold Strat.call
    rw [strat_call_cutOff expf idx attr obj inner a x labels r h]

/-- On a tape without numbers below `lo`, probabilities up to `lo` make no difference. -/
theorem saFit_cutOff {n : Nat} {ρ : Type} (o : MstOrder) (expf : ℚ → ℚ) (obj : Objective ρ)
    (f1 f2 f3 : Nat) (P : SaParams) (self : SaObj) (adj : Adj n) (attr : Fin n → ρ) (p : Int)
    (initial : Option (Labels n)) (cooling : ℚ) {rng : Rng} (h : rng.AtLeast lo) :
    saFit o expf obj f1 f2 f3 P self adj attr p initial cooling rng =
      saFit o (cutOff lo expf) obj f1 f2 f3 P self adj attr p initial cooling rng := by
  have hcomp : ∀ (idx : List (Fin n)) (a : Adj idx.length) (init : Labels idx.length)
      (at' : Fin idx.length → ρ) (st : Strat n 0), Twin (Rng.AtLeast lo) mk2
        (azpComp expf obj f3 idx a init at' st) (azpComp (cutOff lo expf) obj f3 idx a init at' st) :=
    fun idx a init at' st => azpComponent_twin Rng.AtLeast.drop (fun st a x labels r hr =>
      ⟨strat_call_cutOff expf _ _ obj st a x labels r hr,
        (Twin.refl (G := Rng.AtLeast lo) (strat_call_reads expf _ _ obj st a x labels) r hr).2⟩)
        (ops := Strat.ops expf (fun i => idx.get i) at' obj)
        (ops' := Strat.ops (cutOff lo expf) (fun i => idx.get i) at' obj) rfl a f3 init _
  have hazp : ∀ cur st, Twin (Rng.AtLeast lo) mk2
      (fun rng => azpFit o expf obj f3 adj attr p cur st rng)
      fun rng => azpFit o (cutOff lo expf) obj f3 adj attr p cur st rng :=
    fun cur st => fitWith_twin Rng.AtLeast.drop adj attr hcomp o p cur st
  unfold saFit
  split_ifs with hc
  · congr 1
    funext st
    have := (saOuter_twin Rng.AtLeast.drop hazp P cooling f2 f1 P.initTemperature 0 initial self.visited
      (st.saSetMoveMade self.moveMade) rng h).1
    dsimp only at this
    rw [this]
  · rfl

end

end Region
