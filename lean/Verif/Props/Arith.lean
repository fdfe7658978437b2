import Verif.Lemmas.Arith
import Verif.Props.AzpSa
/-
C120: AZP and its annealing variant end under every floating-point rounding.
-/
namespace Region.Props

open Spec

/-- C120 for an arbitrary strategy object (any type of states, any decisions): if the calls return and
`objective_val` only takes values of a finite set — the machine numbers, say — `fit` returns,
whatever the random draws.  Nothing is assumed about the relation between that value and the
labels. -/
theorem c120_any {σ ρ : Type} {n : Nat} (o : MstOrder) {adj : Adj n}
    (attr : Fin n → ρ)
    (ops : (idx : List (Fin n)) → (Fin idx.length → ρ) → StratOps σ idx.length)
    (start : (idx : List (Fin n)) → Labels idx.length → (Fin idx.length → ρ) → σ → σ)
    (S : σ → Prop) (F : Finset ℚ)
    (hstart : ∀ idx init at' st, S (start idx init at' st))
    (hval : ∀ idx at' st, S st → (ops idx at').objVal st ∈ F)
    (hcall : ∀ idx at' st a r labels rng, S st →
      (∃ i, labels i = r) → (∃ i, i ≠ a ∧ labels i = labels a) →
      ∃ out, (ops idx at').call st a r labels rng = .ok out ∧ S out.2.1)
    (p : Int) (initial : Option (Labels n)) (hgood : GoodStart adj p initial) (fuel : Nat)
    (hf1 : n < fuel) (hf2 : F.card < fuel) (st : σ) (rng : Rng) :
    ∃ out, fitAny o adj attr ops start fuel p initial st rng = .ok out := by
  refine fitWith_total o attr p initial hgood (fun idx init st rng hne hlen hcont => ?_) st rng
  refine azpComponent_finite (P := S) F (hval _ _) ?_ fuel
    (List.length_pos_iff.2 hne) (by omega) hf2 init _ (hstart _ _ _ _) rng
  intro labels st a r rng hS hm
  exact hcall idx _ st a r labels rng hS hm.2.1 hm.2.2

/-- C120: `AZP.fit` with the strategies of the library ends for every objective whose `update` does not
raise — its values need not fit together — and for every way of rounding, for all data, starts and
random draws; the result is feasible, has the requested number of regions and, from given labels,
uses the same region labels. -/
theorem c120_azp {n q : Nat} {ρ : Type} (ar : Arith) (o : MstOrder) {obj : Objective ρ}
    (ht : obj.Total) {adj : Adj n} (hs : Symmetric adj) (attr : Fin n → ρ) (F : Finset ℚ)
    (hadd : ∀ x y, ar.add x y ∈ F)
    (hobj : ∀ {k : Nat} (labels : Labels k) (at' : Fin k → ρ), obj.call labels at' ∈ F)
    (p : Nat) (initial : Option (Labels n)) (hgood : GoodStart adj p initial) (fuel : Nat)
    (hf1 : n < fuel) (hf2 : F.card < fuel) (st : Strat n q) (rng : Rng) :
    ∃ labels st' rng',
      azpFitIn ar o obj fuel adj attr p initial st rng = .ok (labels, st', rng') ∧
      Feasible adj labels p ∧
      ∀ init, initial = some init → ∀ x, (∃ v, labels v = x) ↔ ∃ v, init v = x := by
  obtain ⟨⟨labels, st', rng'⟩, h⟩ := c120_any (σ := Strat n q) o attr
    (fun idx at' => Strat.opsIn ar (fun i => idx.get i) at' obj)
    (fun _ init at' st => st.start (obj.call init at')) (Strat.Within F) F
    (fun _ _ _ st => Strat.within_start (hobj _ _) st)
    (fun _ _ _ h => Strat.within_objVal h)
    (fun idx at' st a r labels rng hS h1 h2 => by
      obtain ⟨d, hd⟩ := ht a r labels at' h1 h2
      exact Strat.callIn_total hadd _ _ hd st rng hS)
    p initial hgood fuel hf1 hf2 st rng
  obtain ⟨lab, ⟨h1, h2, h3⟩, hf⟩ := fitAny_ok o hs attr _ _ fuel p initial st rng h
  refine ⟨labels, st', rng', h, ⟨hf.contiguous, ?_⟩, ?_⟩
  · rw [FitOk.numRegions_eq hf]; exact_mod_cast h2
  · rintro init rfl
    have : lab = init := h3
    subst this
    exact hf.image

/-- C120 for `AZPSimulatedAnnealing.fit`, with a finite `maxit`. -/
theorem c120_annealing {n : Nat} {ρ : Type} (ar : Arith) (o : MstOrder) {obj : Objective ρ}
    (ht : obj.Total) (F : Finset ℚ) (hadd : ∀ x y, ar.add x y ∈ F)
    (hobj : ∀ {k : Nat} (labels : Labels k) (at' : Fin k → ρ), obj.call labels at' ∈ F)
    (f1 f2 f3 : Nat) (P : SaParams) (self : SaObj) {adj : Adj n}
    (hs : Symmetric adj) (attr : Fin n → ρ) (p : Nat) (initial : Option (Labels n))
    (hstart : GoodStart adj p initial) (cooling : ℚ) (hc0 : 0 < cooling) (hc1 : cooling < 1)
    (term : Nat) (hterm : 0 < term) (hPt : P.saMovesTerm = .int term) (M : Nat)
    (hM : P.maxIt = some (M : Int)) (hM1 : initial.isSome ∨ 0 < M)
    (hf1 : p ^ n * P.repsBeforeTermination.toNat < f1) (hf2 : M ≤ f2) (hf3 : n < f3)
    (hf4 : F.card < f3) (rng : Rng) :
    ∃ res self' st' rng' rounds,
      saFitIn ar o obj f1 f2 f3 P self adj attr p initial cooling rng =
        .ok (res, self', st', rng') ∧
      self'.visited = self.visited ++ rounds ∧
      st'.saTemperature = P.initTemperature * cooling ^ rounds.length := by
  unfold saFitIn
  rw [if_neg (not_not.2 ⟨hc0, hc1⟩)]
  have hst : newSaStrategy (n := n) (q := 0) P.initTemperature P.saMovesTerm =
      .ok (.sa P.initTemperature term 0 0 false false) := by
    rw [hPt]
    unfold newSaStrategy
    dsimp only
    rw [if_neg (by omega)]
    rfl
  rw [hst, Res.bind_ok]
  have hfeas : ∀ L, initial = some L → Feasible adj L p := by
    intro L hL
    subst hL
    exact ⟨hstart.1, by exact_mod_cast hstart.2.1⟩
  have := saOuter_post (R := False) (T := False) (n := n)
    (azp := fun cur st rng => azpFitIn ar o obj f3 adj attr p cur st rng)
    (K := fun cur => GoodStart adj p cur ∧ (∀ L, cur = some L →
      ∀ v, L v ∈ saLabels (p : Int) initial) ∧
      (cur = none → saLabels (p : Int) initial = Finset.Ico 0 (p : Int)))
    (term := term) hterm P cooling f2 (tuplesOver n (saLabels (p : Int) initial))
    (fun L hL => mem_tuplesOver (hL.2.1 L rfl))
    (by
      intro t cur st rng hk hsa
      obtain ⟨L, st', rng', hout, _⟩ := c120_azp ar o ht hs attr F hadd hobj p cur hk.1 f3 hf3 hf4
        st rng
      have := fitAny_keeps o hs attr
        (fun idx at' => Strat.opsIn ar (fun i => idx.get i) at' obj)
        (fun _ init at' st => st.start (obj.call init at')) f3 p cur (IsSa t term)
        (fun _ init at' st h => isSa_start h _)
        (fun st h idx attr a r labels rng => isSa_callIn h ar _ attr obj a r labels rng)
        st hsa rng
      obtain ⟨h1, lab, h2, h3⟩ := this.ok hout
      exact .of_ok hout ⟨⟨goodStart_next hk.1 h2 h3, fun L hL => by
        cases hL; exact saLabels_next hk.2.1 hk.2.2 h2 h3, fun h => by cases h⟩, h1⟩)
    (fun _ => ⟨M, hM, by exact_mod_cast hf2⟩) f1 P.initTemperature 0 initial self.visited
    ((Strat.sa P.initTemperature term 0 0 false false).saSetMoveMade self.moveMade) rng
    ⟨hstart, fun L hL v => by subst hL; simp [saLabels], fun h => by subst h; rfl⟩
    (isSa_setMoveMade ⟨0, 0, false, false, rfl, by simp; omega⟩ _)
    (fun _ => hM1.imp id fun h => by rw [hM]; simp [belowMax, h])
    (fun _ => lt_of_le_of_lt (roomLeft_le _ _ _) (lt_of_le_of_lt
      (Nat.mul_le_mul_right _ ((card_tuplesOver _ _).trans (by rw [card_saLabels hfeas]))) hf1))
  obtain ⟨⟨L, vis, st', rng'⟩, h1, hK, _, new, h2, h3, _⟩ := this.total
  rw [h1, Res.bind_ok]
  refine ⟨_, _, _, _, new, rfl, h2, ?_⟩
  obtain ⟨m, v, al, mm, h4, _⟩ := h3
  dsimp only at h4 ⊢
  rw [h4]; rfl

/-! A machine with the numbers -8, -15/2, -7, …, 15/2, 8 that rounds down and saturates. -/

/-- Rounding down to a multiple of 1/2 in [-8, 8]. -/
def coarse (x : ℚ) : ℚ := (max (-16) (min 16 (2 * x).floor) : Int) / 2

def coarseNumbers : Finset ℚ := (Finset.Icc (-16 : Int) 16).image fun i : Int => (i : ℚ) / 2

theorem coarse_mem (x : ℚ) : coarse x ∈ coarseNumbers := by
  unfold coarse coarseNumbers
  rw [Finset.mem_image]
  refine ⟨max (-16) (min 16 (2 * x).floor), ?_, rfl⟩
  rw [Finset.mem_Icc]
  omega

/-- The arithmetic of that machine. -/
def coarseArith : Arith where
  add x y := coarse (x + y)
  sum l := l.foldl (fun s x => coarse (s + x)) 0
  sub x y := coarse (x - y)
  prob _ _ := 0

/-- The objective around the mean computed on that machine. -/
def coarseObj : Objective (Row 1) where
  call labels attr := coarse ((centered manhattan meanRow List.sum).call labels attr)
  update a r labels attr :=
    ((centered manhattan meanRow List.sum).update a r labels attr).map coarse

theorem coarseObj_total : coarseObj.Total := by
  intro k a r labels attr h1 h2
  obtain ⟨d, hd⟩ := centered_total manhattan meanRow _ a r labels attr h1 h2
  exact ⟨coarse d, by change Option.map coarse _ = _; rw [hd]; rfl⟩

theorem coarse_not_exact : ¬ coarseObj.Exact := by
  intro h
  have := h (0 : Fin 4) 1 ![0, 0, 1, 1] (column ![0, 1/4, 1/2, 9]) _ rfl
  revert this
  decide +kernel

/-- All hypotheses of `c120_azp` hold for this machine. -/
example (rng : Rng) := c120_azp (q := 0) coarseArith .rowMajor coarseObj_total (adj := path4)
  path4_symm (column ![0, 1/4, 1/2, 9]) coarseNumbers (fun _ _ => coarse_mem _)
  (fun _ _ => coarse_mem _) 2 (some ![0, 0, 1, 1])
  (by
    refine ⟨((c04_assert_feasible_ok ![0, 0, 1, 1] path4 none).1 (by decide +kernel)).1,
      by decide +kernel, ?_⟩
    intro v
    exact ⟨v, .refl, by revert v; decide⟩) 34 (by decide) (by decide +kernel) (.azp 0) rng

end Region.Props
