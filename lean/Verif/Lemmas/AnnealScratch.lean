import Verif.Lemmas.AnnealFit
import Verif.Lemmas.StartOne
/-
Simulated annealing with all its possible results: `fit` making its own start on a connected map.
-/
namespace Region

open Spec Props Res

section Loops
variable {n : Nat} {K S : Labels n → Prop} {run : ℚ → Annealing (Fin n) → Annealing (Fin n) → Prop}
  {term : Nat} (hterm : 0 < term) {P : SaParams} {cooling : ℚ}
include hterm

theorem saOuter_none_sound {azp : Option (Labels n) → Strat n 0 → Rng → Res (Labels n × Strat n 0 × Rng)}
    (hsound : ∀ {t x st rng L st' rng'}, K x.labels → SaBetween t term x st →
      azp (some x.labels) st rng = .ok (L, st', rng') →
      ∃ y, run t x y ∧ L = y.labels ∧ SaBetween t term y st' ∧ K y.labels)
    (hnone : ∀ {st rng out}, azp none st rng = .ok out →
      ∃ init rng1, S init ∧ K init ∧ azp (some init) st rng1 = .ok out)
    {f1 f2 : Nat} {t : ℚ} {x0 : Annealing (Fin n)} {seen : List (Labels n)} {st : Strat n 0} {rng : Rng}
    (hst : SaBetween t term x0 st) {cur : Option (Labels n)} {vis : List (List Int)} {st' : Strat n 0}
    {rng' : Rng}
    (h : saOuter azp P cooling f2 f1 t 0 none (seen.map arrayList) st rng = .ok (cur, vis, st', rng')) :
    (P.nonmovingSteps ≤ 0 ∧ cur = none) ∨ 0 < P.nonmovingSteps ∧ ∃ L, cur = some L ∧
      ∃ y, FromScratch P.maxIt term (run t) S x0.moved y ∧
        ThenAnnealed P.nonmovingSteps P.repsBeforeTermination cooling
          (fun t x y => AtTemperature P.maxIt term (run t) 0 x y) t seen y L := by
  unfold saOuter at h
  split_ifs at h with hc
  swap
  · cases h
    exact .inl ⟨by simpa using hc, rfl⟩
  right
  have hc' : 0 < P.nonmovingSteps := by simpa using hc
  refine ⟨hc', ?_⟩
  cases f1 with
  | zero => cases h
  | succ f1 =>
    dsimp only at h
    rw [Res.bind_eq_ok] at h
    obtain ⟨⟨cur1, st1, rng1⟩, h1, h2⟩ := h
    have hst0 := saBetween_reset hterm hst
    unfold saInner at h1
    rw [saBetween_alert hst0] at h1
    have hno : decide (term ≤ 0) = false := by simpa using hterm.ne'
    dsimp only at h1
    rw [hno] at h1
    split_ifs at h1 with hb
    swap
    · cases h1
      dsimp only at h2
      cases h2
    rw [Bool.not_false, Bool.and_true] at hb
    cases f2 with
    | zero => cases h1
    | succ f2 =>
      dsimp only at h1
      rw [Res.bind_eq_ok] at h1
      obtain ⟨⟨L, st2, rng2⟩, h3, h4⟩ := h1
      dsimp only at h4
      obtain ⟨init, r1, hS, hK, h3⟩ := hnone h3
      obtain ⟨z, hz, rfl, hstz, hKz⟩ := hsound (x := ⟨init, 0, x0.moved⟩) hK hst0 h3
      obtain ⟨y, g1, rfl, g3, g4⟩ := saInner_sound (K := K) (run := run) hsound f2 1 z st2 rng2 hKz hstz h4
      have hfirst : FromScratch P.maxIt term (run t) S x0.moved y :=
        ⟨belowMax_iff.1 hb, init, hS, z, hz, g1⟩
      dsimp only at h2
      rw [count_seen, saBetween_moved (saBetween_cool g3 _)] at h2
      have hmap : seen.map arrayList ++ [arrayList y.labels] = (seen ++ [y.labels]).map arrayList := by simp
      split_ifs at h2 with hr hm
      · cases h2
        exact ⟨_, rfl, y, hfirst, .inl ⟨hr, rfl⟩⟩
      · rw [hmap] at h2
        obtain ⟨L, i1, i2⟩ := saOuter_sound (K := K) (run := run) hterm hsound f1 (t * cooling) 0
          ⟨y.labels, y.worse, false⟩ _ _ rng1 g4 (saBetween_flag (saBetween_cool g3 _) false) h2
        exact ⟨L, i1, y, hfirst, .inr (.inl ⟨not_le.1 hr, hm, i2⟩)⟩
      · rw [hmap] at h2
        obtain ⟨L, i1, i2⟩ := saOuter_sound (K := K) (run := run) hterm hsound f1 (t * cooling) (0 + 1)
          y _ _ rng1 g4 (saBetween_cool g3 _) h2
        exact ⟨L, i1, y, hfirst, .inr (.inr ⟨not_le.1 hr, by simpa using hm, i2⟩)⟩

theorem saOuter_none_complete {t : ℚ} {seen : List (Labels n)} {x0 : Annealing (Fin n)} {L : Labels n}
    (hSK : ∀ init, S init → K init) (hsteps : 0 < P.nonmovingSteps) {y : Annealing (Fin n)}
    (hfirst : FromScratch P.maxIt term (run t) S x0.moved y)
    (hthen : ThenAnnealed P.nonmovingSteps P.repsBeforeTermination cooling
      (fun t x y => AtTemperature P.maxIt term (run t) 0 x y) t seen y L) :
    ∃ F1 F2, ∀ azp, Completes K run term azp →
      (∀ init, S init → ∀ st r' out, azp (some init) st r' = .ok out → ∃ r0, azp none st r0 = .ok out) →
      ∀ f1, F1 ≤ f1 → ∀ f2, F2 ≤ f2 → ∀ st, SaBetween t term x0 st →
      ∃ vis st', ∀ r', ∃ r0,
        saOuter azp P cooling f2 f1 t 0 none (seen.map arrayList) st r0 = .ok (some L, vis, st', r') := by
  obtain ⟨hlim, init, hS, z, hz, hzy⟩ := hfirst
  obtain ⟨G, hin⟩ := saInner_complete (K := K) (term := term) (run := run) hzy
  have hno : decide (term ≤ 0) = false := by simpa using hterm.ne'
  -- the first temperature
  have first : ∀ azp, Completes K run term azp →
      (∀ init, S init → ∀ st r' out, azp (some init) st r' = .ok out → ∃ r0, azp none st r0 = .ok out) →
      ∀ f2, G + 1 ≤ f2 → ∀ st, SaBetween t term x0 st → ∃ st', SaBetween t term y st' ∧ K y.labels ∧
      ∀ r', ∃ r0, saInner azp P.maxIt f2 0 none st.saReset r0 = .ok (some y.labels, st', r') := by
    intro azp hcomp hnone f2 hf2 st hst
    obtain ⟨f2, rfl⟩ : ∃ f, f2 = f + 1 := ⟨f2 - 1, by omega⟩
    have hst0 := saBetween_reset hterm hst
    obtain ⟨st1, h1, h2, h3⟩ := hcomp (x := ⟨init, 0, x0.moved⟩) (hSK init hS) hst0 hz
    obtain ⟨st', g1, g2, g3⟩ := hin azp hcomp f2 (by omega) st1 h2 h1
    refine ⟨st', g1, g2, fun r' => ?_⟩
    obtain ⟨r1, g4⟩ := g3 r'
    obtain ⟨r2, h4⟩ := h3 r1
    obtain ⟨r0, h5⟩ := hnone init hS st.saReset r2 _ h4
    refine ⟨r0, ?_⟩
    unfold saInner
    rw [saBetween_alert hst0]
    dsimp only
    rw [hno, belowMax_iff.2 hlim]
    simp only [Bool.not_false, Bool.and_self, if_true]
    rw [h5, Res.bind_ok]
    exact g4
  have hmap : seen.map arrayList ++ [arrayList y.labels] = (seen ++ [y.labels]).map arrayList := by simp
  have hc : ((0 : Nat) : Int) < P.nonmovingSteps := by simpa using hsteps
  rcases hthen with ⟨hr, rfl⟩ | ⟨hr, hm, hA⟩ | ⟨hr, hm, hA⟩
  · refine ⟨1, G + 1, fun azp hcomp hnone f1 hf1 f2 hf2 st hst => ?_⟩
    obtain ⟨f1, rfl⟩ : ∃ f, f1 = f + 1 := ⟨f1 - 1, by omega⟩
    obtain ⟨st', g1, g2, g3⟩ := first azp hcomp hnone f2 hf2 st hst
    refine ⟨seen.map arrayList, st', fun r' => ?_⟩
    obtain ⟨r0, g4⟩ := g3 r'
    refine ⟨r0, ?_⟩
    unfold saOuter
    rw [if_pos hc]
    dsimp only
    rw [g4, Res.bind_ok]
    dsimp only
    rw [count_seen, if_pos hr]
  · obtain ⟨F1, F2, ih⟩ := saOuter_complete (K := K) (run := run) hterm hA
    refine ⟨F1 + 1, max (G + 1) F2, fun azp hcomp hnone f1 hf1 f2 hf2 st hst => ?_⟩
    obtain ⟨f1, rfl⟩ : ∃ f, f1 = f + 1 := ⟨f1 - 1, by omega⟩
    obtain ⟨st1, g1, g2, g3⟩ := first azp hcomp hnone f2 (le_trans (le_max_left _ _) hf2) st hst
    obtain ⟨vis, st', i1⟩ := ih azp hcomp f1 (by omega) f2 (le_trans (le_max_right _ _) hf2)
      ((st1.saSetTemperature (t * cooling)).saSetMoveMade false) g2
      (saBetween_flag (saBetween_cool g1 _) false)
    refine ⟨vis, st', fun r' => ?_⟩
    obtain ⟨r1, i2⟩ := i1 r'
    obtain ⟨r0, g4⟩ := g3 r1
    refine ⟨r0, ?_⟩
    unfold saOuter
    rw [if_pos hc]
    dsimp only
    rw [g4, Res.bind_ok]
    dsimp only
    rw [count_seen, if_neg (not_le.2 hr), saBetween_moved (saBetween_cool g1 _), if_pos hm, hmap]
    exact i2
  · obtain ⟨F1, F2, ih⟩ := saOuter_complete (K := K) (run := run) hterm hA
    refine ⟨F1 + 1, max (G + 1) F2, fun azp hcomp hnone f1 hf1 f2 hf2 st hst => ?_⟩
    obtain ⟨f1, rfl⟩ : ∃ f, f1 = f + 1 := ⟨f1 - 1, by omega⟩
    obtain ⟨st1, g1, g2, g3⟩ := first azp hcomp hnone f2 (le_trans (le_max_left _ _) hf2) st hst
    obtain ⟨vis, st', i1⟩ := ih azp hcomp f1 (by omega) f2 (le_trans (le_max_right _ _) hf2)
      (st1.saSetTemperature (t * cooling)) g2 (saBetween_cool g1 _)
    refine ⟨vis, st', fun r' => ?_⟩
    obtain ⟨r1, i2⟩ := i1 r'
    obtain ⟨r0, g4⟩ := g3 r1
    refine ⟨r0, ?_⟩
    unfold saOuter
    rw [if_pos hc]
    dsimp only
    rw [g4, Res.bind_ok]
    dsimp only
    rw [count_seen, if_neg (not_le.2 hr), saBetween_moved (saBetween_cool g1 _), if_neg (by simp [hm]), hmap]
    exact i2

end Loops

theorem cutFrom_startable {n : Nat} {o : MstOrder} {adj : Adj n} {p : Nat} {lab : Labels n}
    (h : CutFrom adj (forestOf o adj) p lab) : Startable adj p lab := by
  refine ⟨?_, ?_, fun v hv => ?_⟩
  · obtain ⟨-, K, hK, -, hl⟩ := h
    refine contiguous_of_separates (es := K.toList)
      (fun e he => forestOf_spans.real e (hK (Finset.mem_toList.1 he))) fun a b => ?_
    rw [hl]
    unfold Linked adjOf
    simp
  · have := numRegions_Ico (p := (p : Int)) (by omega)
      (fun v => (h.1.numbers (lab v)).1 ⟨v, rfl⟩) (fun x h0 h1 => (h.1.numbers x).2 ⟨h0, h1⟩)
    exact_mod_cast this
  · have := (h.1.numbers (lab v)).1 ⟨v, rfl⟩
    omega

end Region
