import Verif.Lemmas.SaUnlimited
import Verif.Lemmas.Reads
import Verif.Props.AzpSa
import Verif.Props.AzpTabu
/-
Property theorems C101: simulated annealing without a limit on the iterations of step b
(`max_iterations=float("inf")`, the default).
-/
namespace Region.Props

open Region Spec Relation

/-! ### C101 -/

/-- How much is left to do in step b: the worsening moves still allowed, then the number of labellings
with a smaller objective. -/
noncomputable def saMeasure {n : Nat} (F : Finset Int) (g : Labels n → ℚ) (term : Nat) (L : Labels n)
    (st : Strat n 0) : Nat :=
  (term - st.saMoves) * (F.card ^ n + 1) +
    ((Fintype.piFinset fun _ : Fin n => F).filter fun L' => g L' < g L).card

theorem saMeasure_lt {n : Nat} (F : Finset Int) (g : Labels n → ℚ) (term : Nat) (L : Labels n)
    (st : Strat n 0) : saMeasure F g term L st < (term + 1) * (F.card ^ n + 1) := by
  unfold saMeasure
  have h1 : ((Fintype.piFinset fun _ : Fin n => F).filter fun L' => g L' < g L).card ≤ F.card ^ n := by
    refine (Finset.card_filter_le _ _).trans ?_
    simp [Fintype.card_piFinset]
  have h2 : (term - st.saMoves) * (F.card ^ n + 1) ≤ term * (F.card ^ n + 1) :=
    Nat.mul_le_mul_right _ (by omega)
  rw [Nat.add_mul]
  omega

theorem saMeasure_down {n : Nat} {F : Finset Int} {g : Labels n → ℚ} {term : Nat} {L L' : Labels n}
    {st st' : Strat n 0} (hL' : ∀ v, L' v ∈ F) (hterm : st.saMoves < term)
    (h : st.saMoves < st'.saMoves ∨ st'.saMoves = st.saMoves ∧ g L' < g L) :
    saMeasure F g term L' st' < saMeasure F g term L st := by
  unfold saMeasure
  rcases h with h | ⟨h, hg⟩
  · have h1 : ((Fintype.piFinset fun _ : Fin n => F).filter fun x => g x < g L').card ≤
        F.card ^ n := by
      refine (Finset.card_filter_le _ _).trans ?_
      simp [Fintype.card_piFinset]
    have h2 : (term - st'.saMoves + 1) * (F.card ^ n + 1) ≤
        (term - st.saMoves) * (F.card ^ n + 1) := Nat.mul_le_mul_right _ (by omega)
    rw [Nat.add_mul] at h2
    omega
  · rw [h]
    apply Nat.add_lt_add_left
    apply Finset.card_lt_card
    rw [Finset.ssubset_iff_of_subset]
    · exact ⟨L', by simp [hL', hg], by simp⟩
    · intro x hx
      rw [Finset.mem_filter] at hx ⊢
      exact ⟨hx.1, hx.2.trans hg⟩

/-- C101 (part): if the dissimilarities have no ties, annealing returns a clustering into `n_regions`
contiguous regions from every good start, for every `max_iterations` (also infinite), whatever the
random draws: a round runs AZP at most `(sa_moves_term + 1) * (p^n + 1) + 1` times.
Missing: data with ties, see `c101_endless`. -/
theorem c101_terminates_partial {n : Nat} {ρ : Type} (o : MstOrder) (expf : ℚ → ℚ)
    {metric : ρ → ρ → ℚ} (hd : Dissimilarity metric) (f1 f2 f3 : Nat) (P : SaParams) (self : SaObj)
    {adj : Adj n} (hs : Symmetric adj) (attr : Fin n → ρ)
    (htie : TieFree fun i j => metric (attr i) (attr j)) (p : Nat) (initial : Option (Labels n))
    (hstart : GoodStart adj p initial) (cooling : ℚ) (hc0 : 0 < cooling) (hc1 : cooling < 1)
    (term : Nat) (hterm : 0 < term) (hPt : P.saMovesTerm = .int term)
    (hM : initial.isSome ∨ ∀ M, P.maxIt = some M → 0 < M)
    (hf1 : p ^ n * P.repsBeforeTermination.toNat < f1)
    (hf2 : (term + 1) * (p ^ n + 1) < f2) (hf3 : n + n ^ n < f3) (rng : Rng) :
    ∃ res self' st' rng',
      saFit o expf (pairwise metric) f1 f2 f3 P self adj attr p initial cooling rng =
        .ok (res, self', st', rng') ∧
      (∀ L, res = some L → Feasible adj L p) ∧
      (initial.isSome ∨ 0 < P.nonmovingSteps → res.isSome) := by
  have he : (pairwise metric).Exact := pairwise_exact hd.symm hd.zero
  have ht : (pairwise metric).Total := pairwise_total metric
  have hfeas : ∀ L, initial = some L → Feasible adj L p := by
    intro L hL
    subst hL
    exact ⟨hstart.1, by exact_mod_cast hstart.2.1⟩
  have hcard := card_saLabels (p := p) hfeas
  have hst : newSaStrategy (n := n) (q := 0) P.initTemperature P.saMovesTerm =
      .ok (.sa P.initTemperature term 0 0 false false) := by
    rw [hPt]
    unfold newSaStrategy
    dsimp only
    rw [if_neg (by omega)]
    rfl
  have hbelow : ¬ False → initial.isSome = true ∨ belowMax 0 P.maxIt = true := by
    intro _
    refine hM.imp id fun h => ?_
    cases hP : P.maxIt with
    | none => rfl
    | some M => simpa [belowMax] using h M hP
  have := saOuter_post_of (R := False) (T := False) (n := n)
    (azp := fun cur st rng => azpFit o expf (pairwise metric) f3 adj attr p cur st rng)
    (K := fun cur => GoodStart adj p cur ∧ (∀ L, cur = some L →
      ∀ v, L v ∈ saLabels (p : Int) initial) ∧
      (cur = none → saLabels (p : Int) initial = Finset.Ico 0 (p : Int)))
    (term := term) hterm P cooling f2 (tuplesOver n (saLabels (p : Int) initial))
    (fun L hL => mem_tuplesOver (hL.2.1 L rfl))
    (by
      intro t cur st rng hk hsa hal
      apply (saInner_down (K := fun cur => GoodStart adj p cur ∧ (∀ L, cur = some L →
          ∀ v, L v ∈ saLabels (p : Int) initial) ∧
          (cur = none → saLabels (p : Int) initial = Finset.Ico 0 (p : Int)))
        (S := IsSa t term) P.maxIt
        (saMeasure (saLabels (p : Int) initial) (islandsObj adj (pairwise metric) attr) term)
        ((term + 1) * (p ^ n + 1)) (fun L st _ _ => by
          have := saMeasure_lt (saLabels (p : Int) initial)
            (islandsObj adj (pairwise metric) attr) term L st
          rwa [hcard] at this) ?_ f2 0 cur st rng hk hsa (fun _ => hf2) (fun L _ => .inr ?_)).mono
          id id
      · rintro q ⟨h1, h2, h3⟩
        exact ⟨h1, h2, fun h => h3 (h.imp id fun h => ⟨h, hal⟩)⟩
      · intro cur st rng hk hsa hal
        obtain ⟨out, hout⟩ := azpFit_total o expf he ht attr p cur hk.1 f3 hf3 st rng
        have := azpFit_partial o expf (pairwise metric) hs attr f3 p cur (IsSa t term)
          (fun st v h => isSa_start h v)
          (fun st h k idx attr a r labels rng =>
            isSa_call h expf idx attr (pairwise metric) a r labels rng) st hsa rng
        obtain ⟨h1, lab, h2, h3⟩ := this.ok hout
        have hF := saLabels_next hk.2.1 hk.2.2 h2 h3
        refine .of_ok hout ⟨⟨goodStart_next hk.1 h2 h3, fun L hL => by
          cases hL; exact hF, fun h => by cases h⟩, h1, ?_⟩
        intro L hL
        subst hL
        have hdown := (azpFit_sa_down o expf he hs attr
          (fun idx hnd init => noTies_of_tieFree hd.zero htie hnd init) f3 p L t term st hsa rng).ok
          hout
        by_cases hsame : out.1 = L
        · exact .inl hsame
        · have hlt : st.saMoves < term := by
            obtain ⟨m, v, al, mm, rfl, hiff⟩ := hsa
            change al = false at hal
            change m < term
            rw [hal] at hiff
            simp at hiff
            exact hiff
          exact .inr (.inr (saMeasure_down hF hlt
            (hdown.imp id fun h => ⟨h.1, h.2.resolve_left hsame⟩)))
      · have := saMeasure_lt (saLabels (p : Int) initial)
          (islandsObj adj (pairwise metric) attr) term L st
        rw [hcard] at this
        omega) f1 P.initTemperature 0 initial self.visited
    ((Strat.sa P.initTemperature term 0 0 false false).saSetMoveMade self.moveMade) rng
    ⟨hstart, fun L hL v => by subst hL; simp [saLabels], fun h => by subst h; rfl⟩
    (isSa_setMoveMade ⟨0, 0, false, false, rfl, by simp; omega⟩ _) hbelow
    (fun _ => lt_of_le_of_lt (roomLeft_le _ _ _) (lt_of_le_of_lt
      (Nat.mul_le_mul_right _ ((card_tuplesOver _ _).trans (by rw [hcard]))) hf1))
  obtain ⟨⟨L, vis, st', rng'⟩, h1, hK, hsome, -⟩ := this.total
  refine ⟨L, ⟨vis, st'.saMoveMade⟩, st', rng', ?_, ?_, fun h => hsome (by simpa using h)⟩
  · unfold saFit
    rw [if_neg (not_not.2 ⟨hc0, hc1⟩), hst, Res.bind_ok, h1]
    rfl
  · rintro L rfl
    exact ⟨hK.1.1, by exact_mod_cast hK.1.2.1⟩

example : (match saFit .rowMajor (fun _ => 0) (pairwise manhattan) 81 40 261 ⟨1, none, .int 1, 3, 5⟩ .fresh
      path4 (column ![0, 1, 10, 100]) 2 (some ![0, 1, 1, 1]) (1/2) fun _ => 0 with
    | .ok (some L, s, _, _) => (arrayList L, s.visited.length)
    | _ => ([], 0)) = ([0, 0, 0, 1], 4) := by decide +kernel

example : (TieFree fun i j => manhattan (column ![0, 1, 10, 100] i) (column ![0, 1, 10, 100] j)) ∧
    2 ^ 4 * (5 : Int).toNat < 81 ∧ (1 + 1) * (2 ^ 4 + 1) < 40 ∧ 4 + 4 ^ 4 < 261 := by
  unfold TieFree
  decide +kernel

/-! #### Data with ties -/

/-- Three areas in a row. -/
def row3 : Adj 3 := fun i j => decide (i.val + 1 = j.val ∨ j.val + 1 = i.val)

/-- The numbers drawn in the endless run. -/
def endlessTape : Rng := fun i => if i % 6 = 3 then 1 else 0

theorem endlessTape_mod (m : Nat) : endlessTape.drop m = endlessTape.drop (m % 6) := by
  funext i
  simp only [Rng.drop, endlessTape, Nat.add_mod_mod]

theorem endlessTape_start (m : Nat) (j : Fin 6)
    (h : (List.range 6).map (endlessTape.drop m) = (List.range 6).map (endlessTape.drop j)) :
    endlessTape.drop m = endlessTape.drop j := by
  rw [endlessTape_mod m] at h ⊢
  have hm : m % 6 < 6 := Nat.mod_lt _ (by omega)
  generalize hk : (⟨m % 6, hm⟩ : Fin 6) = k
  have hk' : m % 6 = k.val := by rw [← hk]
  rw [hk'] at h ⊢
  have : k = j := by
    revert h
    clear hk hk' hm
    revert k j
    decide +kernel
  rw [this]

/-- The run of AZP from labels `L` and the tape after `j` draws. -/
def endlessStep (L : Labels 3) (mm : Bool) (j : Nat) : Res (Labels 3 × Strat 3 0 × Rng) :=
  azpFit .rowMajor (fun _ => 0) (pairwise manhattan) 31 row3 (column fun _ => 0) (2 : Nat) (some L)
    (.sa 1 10 0 0 false mm) (endlessTape.drop j)

/-- What can be observed of the outcome. -/
def endlessView : Res (Labels 3 × Strat 3 0 × Rng) → Option (List Int × (Nat × ℚ × Bool × Bool) × List Nat)
  | .ok (L, .sa t term m v al mm, r) =>
    if t = 1 ∧ term = 10 then some (arrayList L, (m, v, al, mm), (List.range 6).map r) else none
  | _ => none

theorem endlessStep_eq (L L' : Labels 3) (mm : Bool) (j j' : Fin 6)
    (h : endlessView (endlessStep L mm j) =
      some (arrayList L', (0, 0, false, true), (List.range 6).map (endlessTape.drop j'))) :
    endlessStep L mm j = .ok (L', .sa 1 10 0 0 false true, endlessTape.drop j') := by
  obtain ⟨k, out, hr⟩ := azpFit_reads (q := 0) .rowMajor (fun _ => 0) (pairwise manhattan) row3
    (column fun _ : Fin 3 => 0) (2 : Nat) (some L) 31 (.sa 1 10 0 0 false mm) (endlessTape.drop j)
  have hr := hr _ fun _ _ => rfl
  change endlessStep L mm j = _ at hr
  rw [hr] at h ⊢
  cases out with
  | raise e => cases h
  | timeout => cases h
  | ok a =>
    obtain ⟨l, st⟩ := a
    rw [Res.bind_ok] at h ⊢
    change endlessView (.ok (l, st, _)) = _ at h
    change Res.ok (l, st, _) = _
    cases st with
    | azp v => cases h
    | maxp _ _ _ _ => cases h
    | sa t term m v al mm' =>
      unfold endlessView at h
      dsimp only at h
      split_ifs at h with ht
      obtain ⟨rfl, rfl⟩ := ht
      simp only [Option.some.injEq, Prod.mk.injEq] at h
      obtain ⟨h1, ⟨rfl, rfl, rfl, rfl⟩, h2⟩ := h
      rw [Rng.drop_drop] at h2 ⊢
      rw [arrayList_inj h1, endlessTape_start _ j' h2]

theorem endless_first : endlessStep ![0, 0, 1] false 0 =
    .ok (![0, 1, 1], .sa 1 10 0 0 false true, endlessTape.drop 3) :=
  endlessStep_eq _ _ _ 0 3 (by decide +kernel)

theorem endless_even : endlessStep ![0, 0, 1] true 0 =
    .ok (![0, 1, 1], .sa 1 10 0 0 false true, endlessTape.drop 3) :=
  endlessStep_eq _ _ _ 0 3 (by decide +kernel)

theorem endless_odd : endlessStep ![0, 1, 1] true 3 =
    .ok (![0, 0, 1], .sa 1 10 0 0 false true, endlessTape.drop 0) :=
  endlessStep_eq _ _ _ 3 0 (by decide +kernel)

theorem endless_inner (fuel : Nat) : ∀ it,
    saInner (fun cur st rng => azpFit .rowMajor (fun _ => 0) (pairwise manhattan) 31 row3
      (column fun _ => 0) (2 : Nat) cur st rng) none fuel it (some ![0, 0, 1])
      (.sa 1 10 0 0 false true) (endlessTape.drop 0) = .timeout ∧
    saInner (fun cur st rng => azpFit .rowMajor (fun _ => 0) (pairwise manhattan) 31 row3
      (column fun _ => 0) (2 : Nat) cur st rng) none fuel it (some ![0, 1, 1])
      (.sa 1 10 0 0 false true) (endlessTape.drop 3) = .timeout := by
  induction fuel with
  | zero => intro it; exact ⟨rfl, rfl⟩
  | succ fuel ih =>
    intro it
    have h1 := endless_even
    have h2 := endless_odd
    unfold endlessStep at h1 h2
    have hne : ¬ arrayList (![0, 0, 1] : Labels 3) = arrayList (![0, 1, 1] : Labels 3) := by decide
    constructor
    · unfold saInner
      rw [if_pos (by rfl)]
      dsimp only
      rw [h1, Res.bind_ok]
      dsimp only
      rw [if_neg hne]
      exact (ih _).2
    · unfold saInner
      rw [if_pos (by rfl)]
      dsimp only
      rw [h2, Res.bind_ok]
      dsimp only
      rw [if_neg (Ne.symm hne)]
      exact (ih _).1

/-- C101 is false: with the default `max_iterations` (infinite), three areas in a row with equal
attributes, two regions, feasible initial labels, and no worsening move ever accepted, there are random
draws for which step b never ends: the middle area changes its region in every run of AZP.  Whatever
number of iterations `f1`, `f2` of the loops one waits for, `fit` has not returned (`f3 = 31` is enough
for every single run of AZP, see `c24_fit_terminates`). -/
theorem c101_endless (nonmoving reps : Int) (h0 : 0 < nonmoving) :
    GoodStart row3 (2 : Nat) (some ![0, 0, 1]) ∧ 3 + 3 ^ 3 < 31 ∧
    ∃ rng, ∀ f1 f2, saFit .rowMajor (fun _ => 0) (pairwise manhattan) f1 f2 31
      ⟨1, none, .int 10, nonmoving, reps⟩ .fresh row3 (column fun _ => 0) (2 : Nat)
      (some ![0, 0, 1]) (9/10) rng = .timeout := by
  refine ⟨⟨((c04_assert_feasible_ok ![0, 0, 1] row3 none).1 (by decide +kernel)).1,
    by decide +kernel, fun v => ⟨v, .refl, ?_⟩⟩, by norm_num, endlessTape.drop 0, fun f1 f2 => ?_⟩
  · revert v; decide +kernel
  unfold saFit
  rw [if_neg (not_not.2 (by norm_num))]
  have hst : newSaStrategy (n := 3) (q := 0) 1 (.int 10) = .ok (.sa 1 10 0 0 false false) := rfl
  dsimp only
  rw [hst, Res.bind_ok]
  have : saOuter (fun cur st rng => azpFit .rowMajor (fun _ => 0) (pairwise manhattan) 31 row3
      (column fun _ => 0) (2 : Nat) cur st rng) ⟨1, none, .int 10, nonmoving, reps⟩ (9/10) f2 f1 1 0
      (some ![0, 0, 1]) [] (.sa 1 10 0 0 false false) (endlessTape.drop 0) = .timeout := by
    unfold saOuter
    rw [if_pos (by simpa using h0)]
    cases f1 with
    | zero => rfl
    | succ f1 =>
      dsimp only
      have hin : saInner (fun cur st rng => azpFit .rowMajor (fun _ => 0) (pairwise manhattan) 31
          row3 (column fun _ => 0) (2 : Nat) cur st rng) none f2 0 (some ![0, 0, 1])
          (Strat.sa 1 10 0 0 false false).saReset (endlessTape.drop 0) = .timeout := by
        cases f2 with
        | zero => rfl
        | succ f2 =>
          have h1 := endless_first
          unfold endlessStep at h1
          unfold saInner
          rw [if_pos (by rfl)]
          dsimp only [Strat.saReset]
          rw [h1, Res.bind_ok]
          dsimp only
          rw [if_neg (by decide)]
          exact (endless_inner f2 _).2
      rw [hin]
      rfl
  change (saOuter _ _ _ _ _ _ _ _ _ (.sa 1 10 0 0 false false) _ >>= _) = _
  change (saOuter _ _ _ _ _ _ _ _ [] _ _ >>= _) = _
  rw [this]
  rfl

end Region.Props
