import Verif.Lemmas.RelTabu
import Verif.Lemmas.Islands
import Verif.Model.AzpSa
/-
Lemmas about using one object for several fits.
-/
namespace Region

open Res Spec

/-- Two strategies that are in the same state once a component has been started. -/
def SameStart {n q : Nat} (s s' : Strat n q) : Prop := ∀ v, s.start v = s'.start v

theorem azpFit_sameStart {n q : Nat} {ρ : Type} (o : MstOrder) (expf : ℚ → ℚ) (obj : Objective ρ)
    (fuel : Nat) (adj : Adj n) (attr : Fin n → ρ) (p : Int) (initial : Option (Labels n))
    {st st' : Strat n q} (h : SameStart st st') (rng : Rng) :
    Rel (SameOut SameStart) (azpFit o expf obj fuel adj attr p initial st rng)
      (azpFit o expf obj fuel adj attr p initial st' rng) := by
  unfold azpFit
  refine fitWith_rel ?_ o adj p initial h rng
  intro idx adj init st st' rng h
  unfold azpComp
  rw [h]
  exact Rel.refl (fun a => ⟨rfl, fun _ => rfl, rfl⟩) _

theorem basicTabuFit_sameStart {n q : Nat} {ρ : Type} (o : MstOrder) (expf : ℚ → ℚ)
    (obj : Objective ρ) (fuel : Nat) (len : Option Nat) (reps : Int) (adj : Adj n) (attr : Fin n → ρ)
    (p : Int) (initial : Option (Labels n)) {st st' : Strat n q} (h : SameStart st st') (rng : Rng) :
    Rel (SameOut SameStart) (basicTabuFit o expf obj fuel len reps adj attr p initial st rng)
      (basicTabuFit o expf obj fuel len reps adj attr p initial st' rng) := by
  unfold basicTabuFit
  refine fitWith_rel ?_ o adj p initial h rng
  intro idx adj init st st' rng h
  dsimp only
  rw [h]
  exact Rel.refl (fun a => ⟨rfl, fun _ => rfl, rfl⟩) _

/-- The two histories hold every solution equally often. -/
def SameCounts (l l' : List (List Int)) : Prop := ∀ x, l.count x = l'.count x

theorem saOuter_sameCounts {n : Nat}
    (azp : Option (Labels n) → Strat n 0 → Rng → Res (Labels n × Strat n 0 × Rng)) (P : SaParams)
    (cooling : ℚ) (innerFuel : Nat) : ∀ (fuel : Nat) (t : ℚ) (nm : Nat) (cur : Option (Labels n))
      {vis vis' : List (List Int)} (_ : SameCounts vis vis') (st : Strat n 0) (rng : Rng),
      Rel (fun x y => x.1 = y.1 ∧ SameCounts x.2.1 y.2.1 ∧ x.2.2 = y.2.2)
        (saOuter azp P cooling innerFuel fuel t nm cur vis st rng)
        (saOuter azp P cooling innerFuel fuel t nm cur vis' st rng) := by
  intro fuel
  induction fuel with
  | zero =>
    intro t nm cur vis vis' h st rng
    unfold saOuter
    split_ifs
    · trivial
    · exact ⟨rfl, h, rfl⟩
  | succ fuel ih =>
    intro t nm cur vis vis' h st rng
    unfold saOuter
    split_ifs
    · refine Rel.same _ ?_
      rintro ⟨cur, st, rng⟩
      cases cur with
      | none => rfl
      | some L =>
        dsimp only
        have hc := h (arrayList L)
        have h' : SameCounts (vis ++ [arrayList L]) (vis' ++ [arrayList L]) := by
          intro x
          rw [List.count_append, List.count_append, h x]
        rw [hc]
        split_ifs
        · exact ⟨rfl, h, rfl⟩
        · exact ih _ _ _ h' _ _
        · exact ih _ _ _ h' _ _
    · exact ⟨rfl, h, rfl⟩

/-- An annealing strategy with these flags. -/
def Flags {n : Nat} (al mm : Bool) (st : Strat n 0) : Prop := ∃ t term m v, st = .sa t term m v al mm

/-- The inner run returns the clustering it is given and makes no move. -/
def Still {n : Nat} (azp : Option (Labels n) → Strat n 0 → Rng → Res (Labels n × Strat n 0 × Rng))
    (init : Labels n) : Prop :=
  ∀ al mm st rng, Flags al mm st →
    ∃ st' rng', azp (some init) st rng = .ok (init, st', rng') ∧ Flags al mm st'

section
variable {n : Nat} {azp : Option (Labels n) → Strat n 0 → Rng → Res (Labels n × Strat n 0 × Rng)}
  {init : Labels n} (hstill : Still azp init)
include hstill

theorem saInner_still (maxIt : Option Int) (innerFuel : Nat) (hf : 0 < innerFuel) (mm : Bool)
    {st : Strat n 0} (hst : Flags false mm st) (rng : Rng) :
    ∃ st' rng', saInner azp maxIt innerFuel 0 (some init) st rng = .ok (some init, st', rng') ∧
      Flags false mm st' := by
  obtain ⟨f, rfl⟩ : ∃ f, innerFuel = f + 1 := ⟨innerFuel - 1, by omega⟩
  unfold saInner
  split_ifs
  · obtain ⟨st', rng', h, hst'⟩ := hstill false mm st rng hst
    refine ⟨st', rng', ?_, hst'⟩
    dsimp only
    rw [h, Res.bind_ok]
    dsimp only
    rw [if_pos rfl]
  · exact ⟨st, rng, rfl, hst⟩

theorem saRound_still (P : SaParams) (cooling : ℚ) (innerFuel : Nat) (hf : 0 < innerFuel)
    (fuel : Nat) (t : ℚ) (nm : Nat) (hnm : (nm : Int) < P.nonmovingSteps) (vis : List (List Int))
    {al mm : Bool} {st : Strat n 0} (hst : Flags al mm st) (rng : Rng) :
    (P.repsBeforeTermination ≤ (vis.count (arrayList init) : Int) ∧ ∃ st' rng',
      saOuter azp P cooling innerFuel (fuel + 1) t nm (some init) vis st rng =
        .ok (some init, vis, st', rng')) ∨
    ((vis.count (arrayList init) : Int) < P.repsBeforeTermination ∧ ∃ t' st' rng', Flags false false st' ∧
      saOuter azp P cooling innerFuel (fuel + 1) t nm (some init) vis st rng =
        saOuter azp P cooling innerFuel fuel t' (if mm then nm else nm + 1) (some init)
          (vis ++ [arrayList init]) st' rng') := by
  have hreset : Flags false mm st.saReset := by
    obtain ⟨t, term, m, v, rfl⟩ := hst
    exact ⟨t, term, 0, v, rfl⟩
  obtain ⟨st1, rng1, h1, t1, term1, m1, v1, rfl⟩ :=
    saInner_still hstill P.maxIt innerFuel hf mm hreset rng
  by_cases hr : P.repsBeforeTermination ≤ (vis.count (arrayList init) : Int)
  · refine .inl ⟨hr, .sa t1 term1 m1 v1 false mm, rng1, ?_⟩
    conv_lhs => unfold saOuter
    rw [if_pos hnm]
    dsimp only
    rw [h1, Res.bind_ok]
    dsimp only
    rw [if_pos hr]
  · refine .inr ⟨not_le.1 hr, t * cooling, .sa (t * cooling) term1 m1 v1 false false, rng1,
      ⟨_, _, _, _, rfl⟩, ?_⟩
    conv_lhs => unfold saOuter
    rw [if_pos hnm]
    dsimp only
    rw [h1, Res.bind_ok]
    dsimp only
    rw [if_neg hr]
    cases mm
    · rfl
    · rfl

theorem saOuter_still (P : SaParams) (cooling : ℚ) (innerFuel : Nat) (hf : 0 < innerFuel) :
    ∀ (d fuel : Nat) (t : ℚ) (nm : Nat) (vis : List (List Int)) (st : Strat n 0) (rng : Rng),
      Flags false false st → ((nm + d : Nat) : Int) = P.nonmovingSteps → d ≤ fuel →
      ∃ st' rng', saOuter azp P cooling innerFuel fuel t nm (some init) vis st rng =
        .ok (some init, vis ++ List.replicate
          (min d (P.repsBeforeTermination - (vis.count (arrayList init) : Int)).toNat)
          (arrayList init), st', rng') := by
  intro d
  induction d with
  | zero =>
    intro fuel t nm vis st rng hst hd hfu
    refine ⟨st, rng, ?_⟩
    unfold saOuter
    rw [if_neg (by omega)]
    simp
  | succ d ih =>
    intro fuel t nm vis st rng hst hd hfu
    obtain ⟨fuel, rfl⟩ : ∃ f, fuel = f + 1 := ⟨fuel - 1, by omega⟩
    rcases saRound_still hstill P cooling innerFuel hf fuel t nm (by omega) vis hst rng with
      ⟨hr, st', rng', h⟩ | ⟨hr, t', st', rng', hst', h⟩
    · refine ⟨st', rng', ?_⟩
      rw [h]
      have : (P.repsBeforeTermination - (vis.count (arrayList init) : Int)).toNat = 0 := by omega
      simp [this]
    · obtain ⟨st2, rng2, h2⟩ := ih fuel t' (nm + 1) (vis ++ [arrayList init]) st' rng' hst'
        (by omega) (by omega)
      refine ⟨st2, rng2, ?_⟩
      rw [h]
      simp only [Bool.false_eq_true, if_false]
      rw [h2, List.append_assoc, ← List.replicate_one, List.replicate_append_replicate]
      have : 1 + min d (P.repsBeforeTermination -
          ((vis ++ List.replicate 1 (arrayList init)).count (arrayList init) : Int)).toNat =
          min (d + 1) (P.repsBeforeTermination - (vis.count (arrayList init) : Int)).toNat := by
        rw [List.count_append, List.count_replicate_self]
        push_cast
        omega
      rw [this]

end

end Region
