import Verif.Lemmas.Rel
import Verif.Props.Azp
/-
Lemmas for C121: objectives whose `update` is the change of some other function of the labels, and
runs of AZP that never end.
-/
namespace Region

open Spec Relation Res

/-! ### Potentials -/

/-- The objective with the same `update` and another value. -/
def Objective.withCall {ρ : Type} (obj : Objective ρ)
    (f : {k : Nat} → Labels k → (Fin k → ρ) → ℚ) : Objective ρ where
  call := f
  update := obj.update

theorem Objective.withCall_total {ρ : Type} {obj : Objective ρ} (h : obj.Total)
    (f : {k : Nat} → Labels k → (Fin k → ρ) → ℚ) : (obj.withCall f).Total := h

/-- The strategies only use `update` when they are called. -/
theorem Strat.call_withCall {n q k : Nat} {ρ : Type} (expf : ℚ → ℚ) (idx : Fin k → Fin n)
    (attr : Fin k → ρ) (obj : Objective ρ) (f : {k : Nat} → Labels k → (Fin k → ρ) → ℚ)
    (st : Strat n q) :
    Strat.call expf idx attr (obj.withCall f) st = Strat.call expf idx attr obj st := by
  funext a r labels rng
  induction st generalizing rng with
  | azp v => rfl
  | sa => rfl
  | maxp spat thr v inner ih =>
    unfold Strat.call
    rw [ih]

theorem Strat.ops_withCall {n q k : Nat} {ρ : Type} (expf : ℚ → ℚ) (idx : Fin k → Fin n)
    (attr : Fin k → ρ) (obj : Objective ρ) (f : {k : Nat} → Labels k → (Fin k → ρ) → ℚ) :
    Strat.ops (q := q) expf idx attr (obj.withCall f) = Strat.ops expf idx attr obj := by
  unfold Strat.ops
  congr 1
  funext st
  exact Strat.call_withCall expf idx attr obj f st

section Center
variable {ρ : Type} (metric : ρ → ρ → ℚ) (center : List ρ → ρ) (reduction : List ℚ → ℚ)

/-- The sum of the heterogeneities of the regions. -/
def totalHeterogeneity {k : Nat} (labels : Labels k) (attr : Fin k → ρ) : ℚ :=
  ∑ r ∈ Finset.univ.image labels, (intraregional metric center reduction labels r attr).getD 0

theorem centerUpdate_total {k : Nat} {a : Fin k} {r : Int} {labels : Labels k} {attr : Fin k → ρ}
    {v w : ℚ} (hw : ∀ x y, reduction [x, y] = w * (x + y))
    (h : (centerUpdate metric center reduction a r labels attr).1 = some v) :
    w * totalHeterogeneity metric center reduction (moved labels a r) attr =
      w * totalHeterogeneity metric center reduction labels attr + v := by
  obtain ⟨⟨i, hi⟩, ⟨j, hj⟩⟩ := (centerUpdate_some metric center reduction).1 ⟨v, h⟩
  have himg : Finset.univ.image (moved labels a r) = Finset.univ.image labels := by
    ext x
    simp only [Finset.mem_image, Finset.mem_univ, true_and]
    constructor
    · rintro ⟨y, rfl⟩
      by_cases hy : y = a
      · exact ⟨i, by simp [moved, hy, hi]⟩
      · exact ⟨y, by simp [moved, hy]⟩
    · rintro ⟨y, rfl⟩
      by_cases hy : y = a
      · exact ⟨j, by rw [hj, hy]⟩
      · exact ⟨y, by simp [moved, hy]⟩
  unfold totalHeterogeneity
  rw [himg]
  by_cases har : labels a = r
  · have hm : moved labels a r = labels := by
      funext x; unfold moved; split_ifs with hx
      · rw [hx, har]
      · rfl
    rw [hm]
    unfold centerUpdate at h
    dsimp only at h
    rw [makeMove_eq_moved, hm] at h
    split at h
    · rename_i d1 d2 e1 e2
      rw [har] at e1 h
      cases h; simp
    · cases h
  · have hmem1 : labels a ∈ Finset.univ.image labels := by simp
    have hmem2 : r ∈ (Finset.univ.image labels).erase (labels a) := by
      simp only [Finset.mem_erase, Finset.mem_image, Finset.mem_univ, true_and]
      exact ⟨Ne.symm har, i, hi⟩
    rw [← Finset.add_sum_erase _ _ hmem1, ← Finset.add_sum_erase _ _ hmem2,
      ← Finset.add_sum_erase _ _ hmem1, ← Finset.add_sum_erase _ _ hmem2]
    have hrest : (∑ x ∈ ((Finset.univ.image labels).erase (labels a)).erase r,
          (intraregional metric center reduction (moved labels a r) x attr).getD 0) =
        ∑ x ∈ ((Finset.univ.image labels).erase (labels a)).erase r,
          (intraregional metric center reduction labels x attr).getD 0 := by
      apply Finset.sum_congr rfl
      intro x hx
      rw [Finset.mem_erase, Finset.mem_erase] at hx
      rw [intraregional_congr]
      intro y
      unfold moved
      split_ifs with hy
      · subst hy
        exact ⟨fun h => absurd h.symm hx.1, fun h => absurd h.symm hx.2.1⟩
      · rfl
    rw [hrest]
    unfold centerUpdate at h
    dsimp only at h
    rw [makeMove_eq_moved] at h
    split at h
    · rename_i d1 d2 e1 e2
      split at h
      · rename_i d3 d4 e3 e4
        cases h
        rw [e1, e2, e3, e4, hw, hw]
        simp only [Option.getD_some]
        ring
      · cases h
    · cases h

end Center

/-! ### Endless runs -/

section Endless
variable {σ : Type} {k : Nat} {ops : StratOps σ k} {adj : Adj k}

theorem growRegion_fuel (r : Int) : ∀ (f : Nat) (s s' : AzpState σ k),
    growRegion ops adj r f s = .ok s' → ∀ f', f ≤ f' → growRegion ops adj r f' s = .ok s' := by
  intro f
  induction f with
  | zero => intro s s' h; cases h
  | succ f ih =>
    intro s s' h f' hf
    obtain ⟨f', rfl⟩ : ∃ g, f' = g + 1 := ⟨f' - 1, by omega⟩
    unfold growRegion at h ⊢
    rw [Res.bind_eq_ok] at h
    obtain ⟨border, h1, h⟩ := h
    rw [h1, Res.bind_ok]
    dsimp only at h ⊢
    rw [Res.bind_eq_ok] at h
    obtain ⟨⟨b, t⟩, h2, h⟩ := h
    rw [h2, Res.bind_ok]
    dsimp only at h ⊢
    cases b with
    | true => exact ih _ _ h _ (by omega)
    | false => exact h

theorem passRegions_fuel {f f' : Nat} (hf : f ≤ f') : ∀ (m : Nat) (l : List Int)
    (s s' : AzpState σ k), passRegions ops adj f m l s = .ok s' →
      passRegions ops adj f' m l s = .ok s' := by
  intro m
  induction m with
  | zero =>
    intro l s s' h
    cases l with
    | nil => exact h
    | cons => cases h
  | succ m ih =>
    intro l s s' h
    cases l with
    | nil => exact h
    | cons x xs =>
      unfold passRegions at h ⊢
      rw [Res.bind_eq_ok] at h
      obtain ⟨⟨r, rest, rng⟩, h1, h⟩ := h
      rw [h1, Res.bind_ok]
      dsimp only at h ⊢
      rw [Res.bind_eq_ok] at h
      obtain ⟨t, h2, h⟩ := h
      rw [growRegion_fuel r f _ _ h2 f' hf, Res.bind_ok]
      exact ih _ _ _ h

/-- The second dict has no more keys than the first. -/
def NoNewKeys (N N' : Int → Option (Fin k → Bool)) : Prop := ∀ x, N x = none → N' x = none

theorem modNbrs_keys {N N' : Int → Option (Fin k → Bool)} {r : Int}
    {f : (Fin k → Bool) → Fin k → Bool} (h : modNbrs N r f = .ok N') : NoNewKeys N N' := by
  unfold modNbrs at h
  intro x hx
  split at h
  · cases h
  · rename_i s hs
    cases h
    dsimp only
    rw [if_neg]
    · exact hx
    · rintro rfl
      rw [hx] at hs
      cases hs

theorem applyMove_keys {r : Int} {a : Fin k} {s s' : AzpState σ k}
    (h : applyMove adj r a s = .ok s') : NoNewKeys s.nbrs s'.nbrs := by
  unfold applyMove at h
  dsimp only at h
  simp only [Res.bind_eq_ok] at h
  obtain ⟨n1, h1, n2, h2, n3, h3, n4, h4, h⟩ := h
  cases h
  exact fun x hx => modNbrs_keys h4 x (modNbrs_keys h3 x (modNbrs_keys h2 x (modNbrs_keys h1 x hx)))

theorem tryCandidates_keys (r : Int) : ∀ (f : Nat) (cs : List (Fin k)) (s : AzpState σ k)
    (out : Bool × AzpState σ k), tryCandidates ops adj r f cs s = .ok out →
      NoNewKeys s.nbrs out.2.nbrs := by
  intro f
  induction f with
  | zero =>
    intro cs s out h
    cases cs with
    | nil => cases h; exact fun _ h => h
    | cons => cases h
  | succ f ih =>
    intro cs s out h
    cases cs with
    | nil => cases h; exact fun _ h => h
    | cons c cs =>
      unfold tryCandidates at h
      rw [Res.bind_eq_ok] at h
      obtain ⟨⟨cand, rest, rng⟩, h1, h⟩ := h
      dsimp only at h
      rw [Res.bind_eq_ok] at h
      obtain ⟨⟨b, st, rng'⟩, h2, h⟩ := h
      dsimp only at h
      cases b with
      | true =>
        rw [if_pos rfl, Res.bind_eq_ok] at h
        obtain ⟨t, h3, h⟩ := h
        cases h
        have := applyMove_keys h3
        exact this
      | false =>
        have := ih _ _ _ h
        exact this

theorem growRegion_keys (r : Int) : ∀ (f : Nat) (s s' : AzpState σ k),
    growRegion ops adj r f s = .ok s' → NoNewKeys s.nbrs s'.nbrs := by
  intro f
  induction f with
  | zero => intro s s' h; cases h
  | succ f ih =>
    intro s s' h
    unfold growRegion at h
    rw [Res.bind_eq_ok] at h
    obtain ⟨border, h1, h⟩ := h
    dsimp only at h
    rw [Res.bind_eq_ok] at h
    obtain ⟨⟨b, t⟩, h2, h⟩ := h
    have := tryCandidates_keys r _ _ _ _ h2
    dsimp only at h
    cases b with
    | true => exact fun x hx => ih _ _ h x (this x hx)
    | false => cases h; exact this

theorem passRegions_keys (f : Nat) : ∀ (m : Nat) (l : List Int) (s s' : AzpState σ k),
    passRegions ops adj f m l s = .ok s' → NoNewKeys s.nbrs s'.nbrs := by
  intro m
  induction m with
  | zero =>
    intro l s s' h
    cases l with
    | nil => cases h; exact fun _ h => h
    | cons => cases h
  | succ m ih =>
    intro l s s' h
    cases l with
    | nil => cases h; exact fun _ h => h
    | cons x xs =>
      unfold passRegions at h
      rw [Res.bind_eq_ok] at h
      obtain ⟨⟨r, rest, rng⟩, h1, h⟩ := h
      dsimp only at h
      rw [Res.bind_eq_ok] at h
      obtain ⟨t, h2, h⟩ := h
      have := growRegion_keys r f _ _ h2
      exact fun x hx => ih _ _ _ h x (this x hx)

/-- A pass that leads back to the same state with a smaller value is repeated for ever. -/
theorem azpOuter_endless {regions : List Int} {fuel : Nat} (S : ℚ → AzpState σ k) {d : ℚ}
    (hd : d < 0) (hval : ∀ v, ops.objVal (S v).strat = v)
    (hpass : ∀ v, passRegions ops adj fuel regions.length regions (S v) = .timeout ∨
      passRegions ops adj fuel regions.length regions (S v) = .ok (S (v + d))) :
    ∀ (m : Nat) (start : Option ℚ) (v : ℚ), improving start v = true →
      azpOuter ops adj regions fuel m start v (S v) = .timeout := by
  intro m
  induction m with
  | zero =>
    intro start v h
    unfold azpOuter
    rw [if_pos h]
  | succ m ih =>
    intro start v h
    unfold azpOuter
    rw [if_pos h]
    rcases hpass v with e | e
    · dsimp only
      rw [e]
      rfl
    · dsimp only
      rw [e, Res.bind_ok, hval]
      exact ih _ _ (by simp [improving, hd])

/-- The values of two plain strategies differ by `c`. -/
def Strat.Shifted {n q : Nat} (c : ℚ) (st st' : Strat n q) : Prop :=
  ∃ v, st = .azp v ∧ st' = .azp (v + c)

/-- The stored value does not influence the answers of the plain strategy. -/
theorem Strat.shifted_calls {n q : Nat} {ρ : Type} (expf : ℚ → ℚ) (idx : Fin k → Fin n)
    (attr : Fin k → ρ) (obj : Objective ρ) (c : ℚ) :
    SameCalls (Strat.Shifted c) (Strat.ops (q := q) expf idx attr obj)
      (Strat.ops expf idx attr obj) := by
  rintro _ _ ⟨v, rfl, rfl⟩ a r labels rng
  change Rel _ (Strat.call expf idx attr obj (.azp v) a r labels rng)
    (Strat.call expf idx attr obj (.azp (v + c)) a r labels rng)
  unfold Strat.call
  cases obj.update a r labels attr with
  | none => rfl
  | some d =>
    dsimp only
    split_ifs
    · exact ⟨rfl, ⟨v + d, rfl, by rw [add_right_comm]⟩, rfl⟩
    · exact ⟨rfl, ⟨v, rfl, rfl⟩, rfl⟩

end Endless

end Region
