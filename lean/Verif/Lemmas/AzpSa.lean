import Mathlib.Algebra.Order.BigOperators.Group.Finset
import Verif.Model.AzpSa
import Verif.Props.Azp
/-
Lemmas about simulated annealing.
-/
namespace Region

open Spec Relation

/-! ### The strategy object -/

/-- An SA strategy with temperature `t` and limit `term` whose alert flag agrees with its counter. -/
def IsSa {n q : Nat} (t : ℚ) (term : Nat) (st : Strat n q) : Prop :=
  ∃ m v al mm, st = .sa t term m v al mm ∧ (al = true ↔ term ≤ m)

theorem isSa_start {n q : Nat} {t : ℚ} {term : Nat} {st : Strat n q} (h : IsSa t term st) (v : ℚ) :
    IsSa t term (st.start v) := by
  obtain ⟨m, v', al, mm, rfl, h⟩ := h
  exact ⟨m, v, al, mm, rfl, h⟩

theorem isSa_call {n q : Nat} {ρ : Type} {t : ℚ} {term : Nat} {st : Strat n q}
    (h : IsSa t term st) (expf : ℚ → ℚ) {k : Nat} (idx : Fin k → Fin n) (attr : Fin k → ρ)
    (obj : Objective ρ) (a : Fin k) (r : Int) (labels : Labels k) (rng : Rng) :
    (st.call expf idx attr obj a r labels rng).Post True True fun p => IsSa t term p.2.1 := by
  obtain ⟨m, v', al, mm, rfl, h⟩ := h
  unfold Strat.call
  cases obj.update a r labels attr with
  | none => trivial
  | some d =>
    dsimp only
    split_ifs with hd
    · exact ⟨m, _, al, true, rfl, h⟩
    · generalize Strat.randomLt (Strat.acceptProb expf d t) rng = x
      obtain ⟨b, rng'⟩ := x
      cases b with
      | true =>
        refine ⟨m + 1, _, _, true, rfl, ?_⟩
        simp only [Bool.or_eq_true, decide_eq_true_eq, h]
        omega
      | false => exact ⟨m, _, al, mm, rfl, h⟩

theorem isSa_reset {n q : Nat} {t : ℚ} {term : Nat} {st : Strat n q} (h : IsSa t term st)
    (ht : 0 < term) : IsSa t term st.saReset := by
  obtain ⟨m, v, al, mm, rfl, h⟩ := h
  exact ⟨0, v, false, mm, rfl, by simp; omega⟩

theorem isSa_setTemperature {n q : Nat} {t t' : ℚ} {term : Nat} {st : Strat n q}
    (h : IsSa t term st) : IsSa t' term (st.saSetTemperature t') := by
  obtain ⟨m, v, al, mm, rfl, h⟩ := h
  exact ⟨m, v, al, mm, rfl, h⟩

theorem isSa_setMoveMade {n q : Nat} {t : ℚ} {term : Nat} {st : Strat n q}
    (h : IsSa t term st) (b : Bool) : IsSa t term (st.saSetMoveMade b) := by
  obtain ⟨m, v, al, mm, rfl, h⟩ := h
  exact ⟨m, v, al, b, rfl, h⟩

/-! ### `AZP.fit` with an invariant of the strategy object -/

theorem azpFit_partial {n q : Nat} {ρ : Type} (o : MstOrder) (expf : ℚ → ℚ) (obj : Objective ρ)
    {adj : Adj n} (hs : Symmetric adj) (attr : Fin n → ρ) (fuel : Nat) (p : Int)
    (initial : Option (Labels n)) (S : Strat n q → Prop)
    (hS : ∀ st v, S st → S (st.start v))
    (hC : ∀ st, S st → ∀ (k : Nat) (idx : Fin k → Fin n) (attr : Fin k → ρ) a r labels rng,
      (st.call expf idx attr obj a r labels rng).Post True True fun p => S p.2.1)
    (st : Strat n q) (hst : S st) (rng : Rng) :
    (azpFit o expf obj fuel adj attr p initial st rng).Post True True fun out =>
      S out.2.1 ∧ ∃ lab, StartsFrom adj p initial lab ∧ FitOk adj lab out.1 := by
  have := fitWith_post (σ := Strat n q) o (adj := adj) (attr := attr)
    (comp := azpComp expf obj fuel) (S := S)
    (Q := fun idx init out => KeepsRegions (subAdj adj idx) init out) (R := True) (T := True) p
    initial (fun h => absurd trivial h) (by
      intro lab hlab c hc st rng hst
      have hcont := comp_contiguous hlab.1 c
      have he : (fun i => compArray adj lab c ((shown (compArray adj lab c)).get i)) =
          fun i => lab ((shown (compArray adj lab c)).get i) := by
        funext i
        have hi := mem_shown.1 (List.get_mem (shown (compArray adj lab c)) i)
        have := (compArray_ne.1 hi).1
        change (if compLabels adj ((shown (compArray adj lab c)).get i) = c then _ else _) = _
        rw [if_pos this]
      rw [he]
      generalize shown (compArray adj lab c) = idx at hcont ⊢
      unfold azpComp
      by_cases hk : 0 < idx.length
      · have hok : StratOk (Strat.ops (q := q) expf (fun i => idx.get i)
            (fun i => attr (idx.get i)) obj) (subAdj adj idx) (fun _ st => S st) True True := by
          intro labels st a r rng _ _ hst
          exact (hC st hst _ _ _ a r labels rng).mono id id fun p hp => hp
        apply (azpComponent_post (Props.subAdj_symm hs idx) hok fuel _ hk hcont _ (hS _ _ hst)
          (fun _ => 0) (fun h => absurd trivial h) rng).mono id id
        rintro q ⟨h1, h2, h3, _⟩
        exact ⟨⟨h2, reach_image h3⟩, h1⟩
      · have : idx = [] := by simpa using hk
        subst this
        exact trivial) st hst rng
  apply this.mono id id
  rintro out ⟨h0, lab, hlab, hf⟩
  obtain ⟨h1, h2⟩ := fit_result hf
  exact ⟨h0, lab, hlab, fitOk_of_keeps hlab.1 h1 h2⟩

theorem goodStart_next {n : Nat} {adj : Adj n} {p : Int} {initial : Option (Labels n)}
    (h : Props.GoodStart adj p initial) {lab L : Labels n} (h1 : StartsFrom adj p initial lab)
    (h2 : FitOk adj lab L) : Props.GoodStart adj p (some L) := by
  refine ⟨h2.contiguous, ?_, ?_⟩
  · rw [Props.FitOk.numRegions_eq h2]; exact h1.2.1
  · intro v
    cases initial with
    | some init =>
      obtain ⟨_, _, rfl⟩ := h1
      obtain ⟨u, hu1, hu2⟩ := h.2.2 v
      exact ⟨u, hu1, fun hc => hu2 ((h2.frozen u).1 hc)⟩
    | none =>
      refine ⟨v, .refl, fun hc => ?_⟩
      have := (h2.frozen v).1 hc
      have := (h1.2.2 v).1
      omega

/-! ### The loops -/

section Loops
variable {n : Nat} {azp : Option (Labels n) → Strat n 0 → Rng → Res (Labels n × Strat n 0 × Rng)}
  {R T : Prop} {K : Option (Labels n) → Prop}

theorem arrayList_inj {n : Nat} {α : Type} {a b : Fin n → α} (h : arrayList a = arrayList b) :
    a = b := by
  funext i
  have h1 : (arrayList a)[i.val]? = (arrayList b)[i.val]? := by rw [h]
  simpa [arrayList] using h1

/-- Why step b ended. -/
def InnerEnd (maxIt : Option Int) (st : Strat n 0) (prev : Option (Labels n))
    (last : Option (Labels n)) (its : Nat) : Prop :=
  belowMax its maxIt = false ∨ st.saAlert = true ∨ (prev = last ∧ last.isSome)

theorem saInner_post {S : Strat n 0 → Prop} (maxIt : Option Int)
    (hazp : ∀ cur st rng, K cur → S st →
      (azp cur st rng).Post R T fun q => K (some q.1) ∧ S q.2.1) :
    ∀ (fuel it : Nat) (cur : Option (Labels n)) (st : Strat n 0) (rng : Rng), K cur → S st →
      (¬ T → ∃ M, maxIt = some M ∧ M ≤ it + fuel) →
      (saInner azp maxIt fuel it cur st rng).Post R T fun q =>
        K q.1 ∧ S q.2.1 ∧
        (cur.isSome = true ∨ (belowMax it maxIt = true ∧ st.saAlert = false) → q.1.isSome = true) ∧
        ∃ its prev, it ≤ its ∧ InnerEnd maxIt q.2.1 prev q.1 its := by
  intro fuel
  induction fuel with
  | zero =>
    intro it cur st rng hk hs hT
    unfold saInner
    split_ifs with hc
    · by_contra hnT
      obtain ⟨M, rfl, hM⟩ := hT hnT
      simp only [belowMax, Bool.and_eq_true, decide_eq_true_eq] at hc
      omega
    · refine ⟨hk, hs, ?_, it, none, le_rfl, ?_⟩
      · rintro (h | ⟨h1, h2⟩)
        · exact h
        · simp [h1, h2] at hc
      · cases h : belowMax it maxIt with
        | false => exact .inl h
        | true => right; left; simpa [h] using hc
  | succ fuel ih =>
    intro it cur st rng hk hs hT
    unfold saInner
    split_ifs with hc
    · dsimp only
      apply (hazp cur st rng hk hs).bind
      rintro ⟨new, st', rng'⟩ _ ⟨hk', hs'⟩
      dsimp only at hk' hs' ⊢
      have hrec : (saInner azp maxIt fuel (it + 1) (some new) st' rng').Post R T fun q =>
          K q.1 ∧ S q.2.1 ∧
          (cur.isSome = true ∨ (belowMax it maxIt = true ∧ st.saAlert = false) →
            q.1.isSome = true) ∧
          ∃ its prev, it ≤ its ∧ InnerEnd maxIt q.2.1 prev q.1 its := by
        apply (ih (it + 1) (some new) st' rng' hk' hs' ?_).mono id id
        · rintro q ⟨h1, h2, h3, its, prev, h4, h5⟩
          exact ⟨h1, h2, fun _ => h3 (.inl rfl), its, prev, by omega, h5⟩
        · intro hnT
          obtain ⟨M, h1, h2⟩ := hT hnT
          exact ⟨M, h1, by push_cast at h2 ⊢; omega⟩
      cases cur with
      | none => exact hrec
      | some old =>
        dsimp only
        split_ifs with he
        · refine ⟨hk', hs', fun _ => rfl, it, some old, le_rfl, .inr (.inr ⟨?_, rfl⟩)⟩
          rw [arrayList_inj he]
        · exact hrec
    · refine ⟨hk, hs, ?_, it, none, le_rfl, ?_⟩
      · rintro (h | ⟨h1, h2⟩)
        · exact h
        · simp [h1, h2] at hc
      · cases h : belowMax it maxIt with
        | false => exact .inl h
        | true => right; left; simpa [h] using hc

/-- How many further rounds the list of visited labellings can grow. -/
def roomLeft (U : Finset (List Int)) (reps : Int) (visited : List (List Int)) : Nat :=
  ∑ l ∈ U, (reps - visited.count l).toNat

theorem roomLeft_lt {U : Finset (List Int)} {reps : Int} {visited : List (List Int)} {l : List Int}
    (hl : l ∈ U) (h : (visited.count l : Int) < reps) :
    roomLeft U reps (visited ++ [l]) < roomLeft U reps visited := by
  apply Finset.sum_lt_sum
  · intro x _
    have : visited.count x ≤ (visited ++ [l]).count x := by
      rw [List.count_append]; omega
    omega
  · refine ⟨l, hl, ?_⟩
    rw [List.count_append, List.count_singleton_self]
    omega

theorem roomLeft_le (U : Finset (List Int)) (reps : Int) (visited : List (List Int)) :
    roomLeft U reps visited ≤ U.card * reps.toNat := by
  unfold roomLeft
  calc _ ≤ ∑ _l ∈ U, reps.toNat := Finset.sum_le_sum fun x _ => by omega
    _ = _ := by simp

/-- Step d, given what step b does. -/
theorem saOuter_post_of {term : Nat} (hterm : 0 < term) (P : SaParams) (cooling : ℚ) (innerFuel : Nat)
    (U : Finset (List Int)) (hU : ∀ L, K (some L) → arrayList L ∈ U)
    (hin : ∀ t cur st rng, K cur → IsSa t term st → st.saAlert = false →
      (saInner azp P.maxIt innerFuel 0 cur st rng).Post R T fun q => K q.1 ∧ IsSa t term q.2.1 ∧
        (cur.isSome = true ∨ belowMax 0 P.maxIt = true → q.1.isSome = true)) :
    ∀ (fuel : Nat) (t : ℚ) (nm : Nat) (cur : Option (Labels n)) (visited : List (List Int))
      (st : Strat n 0) (rng : Rng), K cur → IsSa t term st →
      (¬ R → cur.isSome = true ∨ belowMax 0 P.maxIt = true) →
      (¬ T → roomLeft U P.repsBeforeTermination visited < fuel) →
      (saOuter azp P cooling innerFuel fuel t nm cur visited st rng).Post R T fun q =>
        K q.1 ∧ (cur.isSome = true ∨ (nm : Int) < P.nonmovingSteps → q.1.isSome = true) ∧
        ∃ new, q.2.1 = visited ++ new ∧ IsSa (t * cooling ^ new.length) term q.2.2.1 ∧
          ∀ l ∈ new, l ∈ U := by
  intro fuel
  induction fuel with
  | zero =>
    intro t nm cur visited st rng hk hs hR hT
    unfold saOuter
    split_ifs with hc
    · by_contra hnT
      exact absurd (hT hnT) (by omega)
    · exact ⟨hk, fun h => h.resolve_right hc, [], by simp, by simpa using hs, by simp⟩
  | succ fuel ih =>
    intro t nm cur visited st rng hk hs hR hT
    unfold saOuter
    split_ifs with hc
    · dsimp only
      have hs0 := isSa_reset hs hterm
      have hal : st.saReset.saAlert = false := by
        obtain ⟨m, v, al, mm, rfl, _⟩ := hs; rfl
      apply (hin t cur st.saReset rng hk hs0 hal).bind
      rintro ⟨cur1, st1, rng1⟩ _ ⟨hk1, hs1, hsome⟩
      dsimp only at hk1 hs1 hsome ⊢
      cases cur1 with
      | none =>
        change R
        by_contra hnR
        have := hsome (hR hnR)
        cases this
      | some L =>
        dsimp only
        have hLU := hU L hk1
        split_ifs with hrep hmm
        · exact ⟨hk1, fun _ => rfl, [], by simp, by simpa using hs1, by simp⟩
        · have hs2 := isSa_setMoveMade (isSa_setTemperature (t' := t * cooling) hs1) false
          apply (ih (t * cooling) nm (some L) _ _ rng1 hk1 hs2 (fun _ => .inl rfl) ?_).mono id id
          · rintro q ⟨h1, h2, new, h3, h4, h5⟩
            refine ⟨h1, fun _ => h2 (.inl rfl), arrayList L :: new, by simp [h3], ?_, ?_⟩
            · rw [List.length_cons, pow_succ']; rwa [mul_assoc] at h4
            · simpa [hLU] using h5
          · intro hnT
            have := hT hnT
            have := roomLeft_lt hLU (lt_of_not_ge hrep)
            omega
        · have hs2 := isSa_setTemperature (t' := t * cooling) hs1
          apply (ih (t * cooling) (nm + 1) (some L) _ _ rng1 hk1 hs2 (fun _ => .inl rfl) ?_).mono
            id id
          · rintro q ⟨h1, h2, new, h3, h4, h5⟩
            refine ⟨h1, fun _ => h2 (.inl rfl), arrayList L :: new, by simp [h3], ?_, ?_⟩
            · rw [List.length_cons, pow_succ']; rwa [mul_assoc] at h4
            · simpa [hLU] using h5
          · intro hnT
            have := hT hnT
            have := roomLeft_lt hLU (lt_of_not_ge hrep)
            omega
    · exact ⟨hk, fun h => h.resolve_right hc, [], by simp, by simpa using hs, by simp⟩

theorem saOuter_post {term : Nat} (hterm : 0 < term) (P : SaParams) (cooling : ℚ) (innerFuel : Nat)
    (U : Finset (List Int)) (hU : ∀ L, K (some L) → arrayList L ∈ U)
    (hazp : ∀ t cur st rng, K cur → IsSa t term st →
      (azp cur st rng).Post R T fun q => K (some q.1) ∧ IsSa t term q.2.1)
    (hinner : ¬ T → ∃ M, P.maxIt = some M ∧ M ≤ innerFuel) :
    ∀ (fuel : Nat) (t : ℚ) (nm : Nat) (cur : Option (Labels n)) (visited : List (List Int))
      (st : Strat n 0) (rng : Rng), K cur → IsSa t term st →
      (¬ R → cur.isSome = true ∨ belowMax 0 P.maxIt = true) →
      (¬ T → roomLeft U P.repsBeforeTermination visited < fuel) →
      (saOuter azp P cooling innerFuel fuel t nm cur visited st rng).Post R T fun q =>
        K q.1 ∧ (cur.isSome = true ∨ (nm : Int) < P.nonmovingSteps → q.1.isSome = true) ∧
        ∃ new, q.2.1 = visited ++ new ∧ IsSa (t * cooling ^ new.length) term q.2.2.1 ∧
          ∀ l ∈ new, l ∈ U := by
  apply saOuter_post_of hterm P cooling innerFuel U hU
  intro t cur st rng hk hs hal
  apply (saInner_post (K := K) (R := R) (T := T) (S := IsSa t term) P.maxIt
    (fun cur st rng hk hs => hazp t cur st rng hk hs) innerFuel 0 cur st rng hk hs
    (fun h => by simpa using hinner h)).mono id id
  rintro q ⟨h1, h2, h3, _⟩
  exact ⟨h1, h2, fun h => h3 (h.imp id fun h => ⟨h, hal⟩)⟩

end Loops

end Region
