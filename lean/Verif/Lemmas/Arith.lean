import Verif.Model.Arith
import Verif.Lemmas.AzpSa
import Verif.Lemmas.OneWay
/-
Lemmas about AZP with strategies whose values lie in a finite set.
-/
namespace Region

open Spec Relation

/-- The number of elements of `F` below `v`. -/
def below (F : Finset ℚ) (v : ℚ) : Nat := (F.filter fun x => x < v).card

theorem below_le (F : Finset ℚ) (v : ℚ) : below F v ≤ F.card := Finset.card_filter_le _ _

theorem below_lt {F : Finset ℚ} {x v : ℚ} (hx : x ∈ F) (h : x < v) : below F x < below F v := by
  apply Finset.card_lt_card
  rw [Finset.ssubset_iff_of_subset]
  · exact ⟨x, by simp [hx, h], by simp⟩
  · intro y hy
    simp only [Finset.mem_filter] at hy ⊢
    exact ⟨hy.1, hy.2.trans h⟩

/-- One component: the routine returns if the strategy does and its values lie in `F`. -/
theorem azpComponent_finite {σ : Type} {k : Nat} {ops : StratOps σ k} {adj : Adj k}
    {P : σ → Prop} (F : Finset ℚ) (hval : ∀ st, P st → ops.objVal st ∈ F)
    (hcall : ∀ labels st a r rng, P st → Loose labels a r →
      ∃ out, ops.call st a r labels rng = .ok out ∧ P out.2.1)
    (fuel : Nat) (hk : 0 < k) (hf1 : k < fuel) (hf2 : F.card < fuel) (init : Labels k)
    (st : σ) (hP : P st) (rng : Rng) :
    ∃ out, azpComponent ops adj fuel init st rng = .ok out := by
  have hok : LooseOk ops (fun _ st => P st) False False := by
    intro labels st a r rng hm hP
    obtain ⟨out, h1, h2⟩ := hcall labels st a r rng hP hm
    exact .of_ok h1 h2
  have := azpComponent_looseRanked (adj := adj) hok fuel init hk st hP (below F) (fun _ =>
    ⟨hf1, (below_le F _).trans_lt hf2, fun L st v hP _ hlt => below_lt (hval st hP) hlt⟩) rng
  obtain ⟨a, h, _⟩ := this.total
  exact ⟨a, h⟩

/-- All values stored by the object lie in `F`. -/
def Strat.Within {n q : Nat} (F : Finset ℚ) : Strat n q → Prop
  | .azp v => v ∈ F
  | .sa _ _ _ v _ _ => v ∈ F
  | .maxp _ _ v inner => v ∈ F ∧ Strat.Within F inner

theorem Strat.within_start {n q : Nat} {F : Finset ℚ} {v : ℚ} (hv : v ∈ F) (st : Strat n q) :
    (st.start v).Within F := by
  induction st with
  | azp => exact hv
  | sa => exact hv
  | maxp _ _ _ inner ih => exact ⟨hv, ih⟩

theorem Strat.within_objVal {n q : Nat} {F : Finset ℚ} {st : Strat n q} (h : st.Within F) :
    st.objVal ∈ F := by
  cases st with
  | azp => exact h
  | sa => exact h
  | maxp => exact h.1

theorem Strat.callIn_total {n q k : Nat} {ρ : Type} {ar : Arith} {F : Finset ℚ}
    (hadd : ∀ x y, ar.add x y ∈ F) (idx : Fin k → Fin n) (attr : Fin k → ρ) {obj : Objective ρ}
    {a : Fin k} {r : Int} {labels : Labels k} {d : ℚ} (hd : obj.update a r labels attr = some d) :
    ∀ (st : Strat n q) (rng : Rng), st.Within F →
      ∃ out, st.callIn ar idx attr obj a r labels rng = .ok out ∧ out.2.1.Within F := by
  intro st
  induction st with
  | azp v =>
    intro rng h
    unfold Strat.callIn
    rw [hd]
    dsimp only
    split_ifs
    · exact ⟨_, rfl, hadd _ _⟩
    · exact ⟨_, rfl, h⟩
  | sa t term m v al mm =>
    intro rng h
    unfold Strat.callIn
    rw [hd]
    dsimp only
    split_ifs
    · exact ⟨_, rfl, hadd _ _⟩
    · split
      · exact ⟨_, rfl, hadd _ _⟩
      · exact ⟨_, rfl, h⟩
  | maxp spat thr v inner ih =>
    intro rng h
    unfold Strat.callIn
    generalize maxpBlocksIn _ _ _ _ _ = blocked
    cases blocked with
    | true => rw [if_pos rfl]; exact ⟨_, rfl, h⟩
    | false =>
      rw [if_neg (by simp)]
      obtain ⟨out, h1, h2⟩ := ih rng h.2
      rw [h1]
      exact ⟨_, rfl, h.1, h2⟩

theorem isSa_callIn {n q : Nat} {ρ : Type} {t : ℚ} {term : Nat} {st : Strat n q}
    (h : IsSa t term st) (ar : Arith) {k : Nat} (idx : Fin k → Fin n) (attr : Fin k → ρ)
    (obj : Objective ρ) (a : Fin k) (r : Int) (labels : Labels k) (rng : Rng) :
    (st.callIn ar idx attr obj a r labels rng).Post True True fun p => IsSa t term p.2.1 := by
  obtain ⟨m, v', al, mm, rfl, h⟩ := h
  unfold Strat.callIn
  cases obj.update a r labels attr with
  | none => trivial
  | some d =>
    dsimp only
    split_ifs with hd
    · exact ⟨m, _, al, true, rfl, h⟩
    · generalize Strat.randomLt (ar.prob d t) rng = x
      obtain ⟨b, rng'⟩ := x
      cases b with
      | true =>
        refine ⟨m + 1, _, _, true, rfl, ?_⟩
        simp only [Bool.or_eq_true, decide_eq_true_eq, h]
        omega
      | false => exact ⟨m, _, al, mm, rfl, h⟩

/-- What a strategy keeps during a component it keeps during `fit`. -/
theorem fitAny_keeps {σ ρ : Type} {n : Nat} (o : MstOrder) {adj : Adj n} (hs : Symmetric adj)
    (attr : Fin n → ρ)
    (ops : (idx : List (Fin n)) → (Fin idx.length → ρ) → StratOps σ idx.length)
    (start : (idx : List (Fin n)) → Labels idx.length → (Fin idx.length → ρ) → σ → σ)
    (fuel : Nat) (p : Int) (initial : Option (Labels n)) (S : σ → Prop)
    (hS : ∀ idx init at' st, S st → S (start idx init at' st))
    (hC : ∀ st, S st → ∀ idx at' a r labels rng,
      ((ops idx at').call st a r labels rng).Post True True fun p => S p.2.1)
    (st : σ) (hst : S st) (rng : Rng) :
    (Props.fitAny o adj attr ops start fuel p initial st rng).Post True True fun out =>
      S out.2.1 ∧ ∃ lab, StartsFrom adj p initial lab ∧ FitOk adj lab out.1 := by
  have := fitWith_post (σ := σ) o (adj := adj) (attr := attr)
    (comp := fun idx a init at' st rng =>
      azpComponent (ops idx at') a fuel init (start idx init at' st) rng) (S := S)
    (Q := fun idx init out => KeepsRegions (subAdj adj idx) init out) (R := True) (T := True) p
    initial (fun h => absurd trivial h) (by
      intro lab hlab c hc st rng hst
      have hcont := comp_contiguous hlab.1 c
      have he : (fun i => compArray adj lab c ((shown (compArray adj lab c)).get i)) =
          fun i => lab ((shown (compArray adj lab c)).get i) := by
        funext i
        have hi := mem_shown.1 (List.get_mem (shown (compArray adj lab c)) i)
        have := (compArray_ne.1 hi).1
        change (if compLabels adj ((shown (compArray adj lab c)).get i) = c then _ else _) = _
        rw [if_pos this]
      rw [he]
      generalize shown (compArray adj lab c) = idx at hcont ⊢
      by_cases hk : 0 < idx.length
      · have hok : StratOk (ops idx fun i => attr (idx.get i)) (subAdj adj idx)
            (fun _ st => S st) True True := by
          intro labels st a r rng _ _ hst
          exact (hC st hst _ _ a r labels rng).mono id id fun p hp => hp
        apply (azpComponent_post (Props.subAdj_symm hs idx) hok fuel _ hk hcont _
          (hS _ _ _ _ hst) (fun _ => 0) (fun h => absurd trivial h) rng).mono id id
        rintro q ⟨h1, h2, h3, _⟩
        exact ⟨⟨h2, reach_image h3⟩, h1⟩
      · have : idx = [] := by simpa using hk
        subst this
        exact trivial) st hst rng
  apply this.mono id id
  rintro out ⟨h0, lab, hlab, hf⟩
  obtain ⟨h1, h2⟩ := fit_result hf
  exact ⟨h0, lab, hlab, fitOk_of_keeps hlab.1 h1 h2⟩

end Region
