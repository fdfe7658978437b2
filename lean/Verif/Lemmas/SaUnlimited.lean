import Verif.Lemmas.AzpSa
import Verif.Lemmas.AzpTabu
/-
Lemmas for simulated annealing without a limit on the iterations of step b: between two worsening
moves the objective goes down.
-/
namespace Region

open Spec Relation

/-- The number of worsening moves the strategy has accepted since the last reset. -/
def Strat.saMoves {n q : Nat} : Strat n q → Nat
  | .sa _ _ m _ _ _ => m
  | _ => 0

section Component
variable {n q k : Nat} {ρ : Type}

/-- Invariant of one component: more than `m0` worsening moves, or exactly `m0` and the labels are
the initial ones or better. -/
def SaDown (t : ℚ) (term m0 : Nat) (obj : Objective ρ) (attr : Fin k → ρ) (init L : Labels k)
    (st : Strat n q) : Prop :=
  IsSa t term st ∧ (∀ x, (∃ i, L i = x) ↔ ∃ i, init i = x) ∧
    (m0 < st.saMoves ∨ st.saMoves = m0 ∧ (L = init ∨ obj.call L attr < obj.call init attr))

theorem saDown_stratOk (expf : ℚ → ℚ) (idx : Fin k → Fin n) {obj : Objective ρ} (he : obj.Exact)
    (attr : Fin k → ρ) (init : Labels k) (hnt : NoTies init obj attr) (adj : Adj k) (t : ℚ)
    (term m0 : Nat) :
    StratOk (Strat.ops (q := q) expf idx attr obj) adj (SaDown t term m0 obj attr init) True True := by
  intro L st a r rng _ hadm ⟨hsa, himg, hm⟩
  have hsa' := isSa_call hsa expf idx attr obj a r L rng
  change (Strat.call expf idx attr obj st a r L rng).Post _ _ _
  obtain ⟨m, v, al, mm, rfl, hal⟩ := hsa
  have himg' : ∀ x, (∃ i, moved L a r i = x) ↔ ∃ i, init i = x := fun x =>
    (moved_image hadm x).trans (himg x)
  change m0 < m ∨ m = m0 ∧ _ at hm
  unfold Strat.call at hsa' ⊢
  cases hd : obj.update a r L attr with
  | none => trivial
  | some d =>
    rw [hd] at hsa'
    dsimp only at hsa' ⊢
    have hx := he a r L attr d hd
    by_cases hle : d ≤ 0
    · rw [if_pos hle] at hsa' ⊢
      refine ⟨hsa', himg', ?_⟩
      have hne : d ≠ 0 := by rintro rfl; exact hnt L himg a r hadm.1 hd
      have hlt : d < 0 := lt_of_le_of_ne hle hne
      rcases hm with hm | ⟨hm, hL⟩
      · exact .inl hm
      · refine .inr ⟨hm, .inr ?_⟩
        change obj.call (moved L a r) attr < _
        rw [hx]
        rcases hL with rfl | hL <;> linarith
    · rw [if_neg hle] at hsa' ⊢
      generalize Strat.randomLt (Strat.acceptProb expf d t) rng = x at hsa' ⊢
      obtain ⟨b, rng'⟩ := x
      cases b with
      | true =>
        refine ⟨hsa', himg', .inl ?_⟩
        change m0 < m + 1
        rcases hm with hm | ⟨hm, _⟩ <;> omega
      | false => exact ⟨hsa', himg, hm⟩

end Component

section Fit
variable {n : Nat} {ρ : Type}

theorem fitLoop_or {σ : Type} {adj : Adj n} {attr : Fin n → ρ} {comp : CompFn σ n ρ}
    {B S : σ → Prop} {Q : (idx : List (Fin n)) → Labels idx.length → Labels idx.length → Prop}
    (hBS : ∀ st, B st → ¬ S st) (ys : List (Labels n))
    (hstep : ∀ y ∈ ys, ∀ st rng, S st ∨ B st →
      (comp (shown y) (subAdj adj (shown y)) (fun i => y ((shown y).get i))
        (fun i => attr ((shown y).get i)) st rng).Post True True fun p =>
          B p.2.1 ∨ S st ∧ S p.2.1 ∧ Q (shown y) (fun i => y ((shown y).get i)) p.1) :
    ∀ (L : Labels n) (st : σ) (rng : Rng), S st ∨ B st →
      (fitLoop adj attr comp (ys.map fun y r => .ok (.array y, r)) L st rng).Post True True fun p =>
        B p.2.1 ∨ S st ∧ S p.2.1 ∧ Fitted Q ys L p.1 := by
  induction ys with
  | nil => intro L st rng h; exact h.symm.imp id fun h => ⟨h, h, .nil L⟩
  | cons y ys ih =>
    intro L st rng h
    rw [List.map_cons]
    unfold fitLoop
    rw [Res.bind_ok]
    dsimp only
    apply Res.Post.bind (Q := fun p : Labels n × σ × Rng => B p.2.1 ∨ S st ∧ S p.2.1 ∧
      ∃ out, Q (shown y) (fun i => y ((shown y).get i)) out ∧ p.1 = scatter (shown y) out L)
    · unfold fitStep
      apply (hstep y (by simp) st rng h).bind
      rintro ⟨out, st', rng'⟩ _ h
      exact h.imp id fun ⟨h1, h2, h3⟩ => ⟨h1, h2, out, h3, rfl⟩
    rintro ⟨L1, st1, rng1⟩ _ h1
    dsimp only at h1 ⊢
    apply (ih (fun y hy => hstep y (by simp [hy])) L1 st1 rng1
      (h1.symm.imp (fun h => h.2.1) id)).mono id id
    rintro p hp
    rcases hp with hp | ⟨hp1, hp2, hp3⟩
    · exact .inl hp
    · rcases h1 with h1 | ⟨e1, e2, out, e3, rfl⟩
      · exact absurd hp1 (hBS _ h1)
      · exact .inr ⟨e1, hp2, .cons y ys L p.1 out e3 hp3⟩

/-- The objective of one island: of the areas listed in `idx`. -/
def islandObj (obj : Objective ρ) (attr : Fin n → ρ) (L : Labels n) (idx : List (Fin n)) : ℚ :=
  obj.call (fun i => L (idx.get i)) fun i => attr (idx.get i)

/-- The sum of the objectives of the islands. -/
def islandsObj (adj : Adj n) (obj : Objective ρ) (attr : Fin n → ρ) (L : Labels n) : ℚ :=
  ∑ c ∈ Finset.range (nComponents adj), islandObj obj attr L (shown (compArray adj L c))

/-- A run of AZP with the annealing strategy from given labels accepts a worsening move, changes
nothing, or lowers the sum of the objectives of the islands. -/
theorem azpFit_sa_down (o : MstOrder) (expf : ℚ → ℚ) {obj : Objective ρ} (he : obj.Exact)
    {adj : Adj n} (hs : Symmetric adj) (attr : Fin n → ρ)
    (hnt : ∀ idx : List (Fin n), idx.Nodup → ∀ init : Labels idx.length,
      NoTies init obj fun i => attr (idx.get i)) (fuel : Nat) (p : Int) (L : Labels n) (t : ℚ)
    (term : Nat) (st : Strat n 0) (hst : IsSa t term st) (rng : Rng) :
    (azpFit o expf obj fuel adj attr p (some L) st rng).Post True True fun out =>
      st.saMoves < out.2.1.saMoves ∨ out.2.1.saMoves = st.saMoves ∧
        (out.1 = L ∨ islandsObj adj obj attr out.1 < islandsObj adj obj attr L) := by
  have hfit := azpFit_partial o expf obj hs attr fuel p (some L) (IsSa t term)
    (fun st v h => isSa_start h v)
    (fun st h k idx attr a r labels rng => isSa_call h expf idx attr obj a r labels rng) st hst rng
  cases hres : azpFit o expf obj fuel adj attr p (some L) st rng with
  | raise e => trivial
  | timeout => trivial
  | ok out =>
    obtain ⟨-, lab, ⟨hcl, -, rfl⟩, hok⟩ := hfit.ok hres
    change _ ∨ _
    unfold azpFit fitWith at hres
    dsimp only at hres
    obtain ⟨_, -, hres⟩ := Res.bind_eq_ok.1 hres
    have := (fitLoop_or (σ := Strat n 0) (adj := adj) (attr := attr)
      (comp := azpComp expf obj fuel)
      (B := fun s => IsSa t term s ∧ st.saMoves < s.saMoves)
      (S := fun s => IsSa t term s ∧ s.saMoves = st.saMoves)
      (Q := fun idx init out => out = init ∨
        obj.call out (fun i => attr (idx.get i)) < obj.call init fun i => attr (idx.get i))
      (fun s h1 h2 => by omega) (separateComponents adj lab) (by
        intro y hy s rng hsb
        rw [separateComponents_eq] at hy
        obtain ⟨c, _, rfl⟩ := List.mem_map.1 hy
        have hcont := comp_contiguous hcl c
        have he' : (fun i => compArray adj lab c ((shown (compArray adj lab c)).get i)) =
            fun i => lab ((shown (compArray adj lab c)).get i) := by
          funext i
          have hi := mem_shown.1 (List.get_mem (shown (compArray adj lab c)) i)
          have := (compArray_ne.1 hi).1
          change (if compLabels adj ((shown (compArray adj lab c)).get i) = c then _ else _) = _
          rw [if_pos this]
        rw [he']
        have hnd := shown_nodup (compArray adj lab c)
        generalize shown (compArray adj lab c) = idx at hcont hnd ⊢
        unfold azpComp
        by_cases hk : 0 < idx.length
        · have hs' : IsSa t term s := hsb.elim And.left And.left
          have hm : (s.start (obj.call (fun i => lab (idx.get i))
              fun i => attr (idx.get i))).saMoves = s.saMoves := by
            obtain ⟨_, _, _, _, rfl, _⟩ := hs'; rfl
          apply (azpComponent_post (Props.subAdj_symm hs idx)
            (saDown_stratOk (q := 0) expf (fun i => idx.get i) he (fun i => attr (idx.get i))
              (fun i => lab (idx.get i)) (hnt idx hnd _) (subAdj adj idx) t term s.saMoves) fuel _ hk
            hcont _ ⟨isSa_start hs' _, fun _ => Iff.rfl, .inr ⟨hm, .inl rfl⟩⟩
            (fun _ => 0) (fun h => absurd trivial h) rng).mono id id
          rintro q ⟨⟨h1, h2, h3⟩, -⟩
          rcases hsb with hsb | hsb
          · rcases h3 with h3 | ⟨h3, h4⟩
            · exact .inl ⟨h1, by omega⟩
            · exact .inr ⟨hsb, ⟨h1, by omega⟩, h4⟩
          · exact .inl ⟨h1, by rcases h3 with h3 | ⟨h3, -⟩ <;> omega⟩
        · have : idx = [] := by simpa using hk
          subst this
          exact trivial) (fun _ => -1) st rng (.inl ⟨hst, rfl⟩)).ok hres
    rcases this with h | ⟨-, h, hf⟩
    · exact .inl h.2
    · refine .inr ⟨h.2, ?_⟩
      obtain ⟨h1, h2⟩ := fit_result hf
      have hsh : ∀ c, shown (compArray adj out.1 c) = shown (compArray adj lab c) := by
        intro c
        unfold shown
        apply List.filter_congr
        intro v _
        rw [decide_eq_decide, compArray_ne, compArray_ne, Ne, hok.frozen]
      by_cases hall : ∀ c < nComponents adj,
          (fun i => out.1 ((shown (compArray adj lab c)).get i)) =
            fun i => lab ((shown (compArray adj lab c)).get i)
      · left
        funext v
        by_cases hv : lab v = -1
        · rw [hv, h1 v hv]
        · obtain ⟨i, hi⟩ := List.get_of_mem (show v ∈ shown (compArray adj lab (compLabels adj v)) by
            rw [mem_shown, compArray_ne]; exact ⟨rfl, hv⟩)
          have := congrFun (hall _ (compLabels_lt adj v)) i
          rwa [hi] at this
      · right
        push Not at hall
        obtain ⟨c, hc, hne⟩ := hall
        unfold islandsObj
        apply Finset.sum_lt_sum
        · intro c hc
          rw [hsh]
          rcases h2 c (by simpa using hc) with h | h
          · unfold islandObj; rw [h]
          · exact h.le
        · refine ⟨c, by simpa using hc, ?_⟩
          rw [hsh]
          exact (h2 c hc).resolve_left hne

end Fit

section Inner
variable {n : Nat} {azp : Option (Labels n) → Strat n 0 → Rng → Res (Labels n × Strat n 0 × Rng)}
  {K : Option (Labels n) → Prop}

/-- Step b ends if every run of AZP sets the alert, changes nothing, or lowers a measure. -/
theorem saInner_down {S : Strat n 0 → Prop} (maxIt : Option Int) (μ : Labels n → Strat n 0 → Nat)
    (F : Nat) (hF : ∀ L st, K (some L) → S st → μ L st < F)
    (hazp : ∀ cur st rng, K cur → S st → st.saAlert = false →
      (azp cur st rng).Post False False fun p => K (some p.1) ∧ S p.2.1 ∧
        ∀ L, cur = some L → p.1 = L ∨ p.2.1.saAlert = true ∨ μ p.1 p.2.1 < μ L st) :
    ∀ (fuel it : Nat) (cur : Option (Labels n)) (st : Strat n 0) (rng : Rng), K cur → S st →
      (cur = none → F < fuel) → (∀ L, cur = some L → st.saAlert = true ∨ μ L st < fuel) →
      (saInner azp maxIt fuel it cur st rng).Post False False fun p => K p.1 ∧ S p.2.1 ∧
        (cur.isSome = true ∨ (belowMax it maxIt = true ∧ st.saAlert = false) →
          p.1.isSome = true) := by
  intro fuel
  induction fuel with
  | zero =>
    intro it cur st rng hk hst h0 h1
    unfold saInner
    by_cases hc : (belowMax it maxIt && !st.saAlert) = true
    · exfalso
      simp only [Bool.and_eq_true, Bool.not_eq_true'] at hc
      cases cur with
      | none => exact absurd (h0 rfl) (by omega)
      | some L =>
        rcases h1 L rfl with h | h
        · rw [hc.2] at h; cases h
        · omega
    · rw [if_neg hc]
      refine ⟨hk, hst, ?_⟩
      rintro (h | ⟨h2, h3⟩)
      · exact h
      · simp [h2, h3] at hc
  | succ fuel ih =>
    intro it cur st rng hk hst h0 h1
    unfold saInner
    by_cases hc : (belowMax it maxIt && !st.saAlert) = true
    · rw [if_pos hc]
      simp only [Bool.and_eq_true, Bool.not_eq_true'] at hc
      dsimp only
      apply (hazp cur st rng hk hst hc.2).bind
      rintro ⟨new, st', rng'⟩ _ ⟨hk', hst', hdown⟩
      dsimp only at hk' hst' hdown ⊢
      cases cur with
      | none =>
        dsimp only
        apply (ih (it + 1) (some new) st' rng' hk' hst' (fun h => by cases h) ?_).mono id id
        · rintro p ⟨g1, g2, g3⟩
          exact ⟨g1, g2, fun _ => g3 (.inl rfl)⟩
        · intro L hL
          cases hL
          have := hF new st' hk' hst'
          have := h0 rfl
          exact .inr (by omega)
      | some L =>
        dsimp only
        split_ifs with heq
        · exact ⟨hk', hst', fun _ => rfl⟩
        · apply (ih (it + 1) (some new) st' rng' hk' hst' (fun h => by cases h) ?_).mono id id
          · rintro p ⟨g1, g2, g3⟩
            exact ⟨g1, g2, fun _ => g3 (.inl rfl)⟩
          · intro L' hL'
            cases hL'
            rcases hdown L rfl with h | h | h
            · exact absurd (by rw [h]) heq
            · exact .inl h
            · rcases h1 L rfl with h' | h'
              · rw [hc.2] at h'; cases h'
              · exact .inr (by omega)
    · rw [if_neg hc]
      refine ⟨hk, hst, ?_⟩
      rintro (h | ⟨h2, h3⟩)
      · exact h
      · simp [h2, h3] at hc

end Inner

end Region
