import Verif.Lemmas.AzpExactFit
/-
The default strategy inside any number of Max-p decorators.
-/
namespace Region

open Spec Res

section
variable {n q : Nat} (spat : Fin n → Fin q → ℚ) (thr : Fin q → ℚ)

/-- The default strategy inside decorators with these thresholds. -/
def Strat.Decorated : Strat n q → Prop
  | .azp _ => True
  | .sa .. => False
  | .maxp s t _ inner => s = spat ∧ t = thr ∧ inner.Decorated

/-- All decorators have the value `v` and the default strategy has the value `w`. -/
def Strat.Layered (v w : ℚ) : Strat n q → Prop
  | .azp x => x = w
  | .sa .. => False
  | .maxp s t x inner => s = spat ∧ t = thr ∧ x = v ∧ inner.Layered v w

variable {spat thr}

theorem Strat.Decorated.start : ∀ {st : Strat n q}, st.Decorated spat thr → ∀ v, (st.start v).Layered spat thr v v
  | .azp _, _, _ => rfl
  | .sa .., h, _ => h.elim
  | .maxp _ _ _ _, ⟨h1, h2, h3⟩, v => ⟨h1, h2, rfl, Strat.Decorated.start h3 v⟩

theorem Strat.Layered.decorated : ∀ {st : Strat n q} {v w : ℚ}, st.Layered spat thr v w → st.Decorated spat thr
  | .azp _, _, _, _ => trivial
  | .sa .., _, _, h => h.elim
  | .maxp _ _ _ _, _, _, ⟨h1, h2, _, h3⟩ => ⟨h1, h2, Strat.Layered.decorated h3⟩

end

section
variable {n q k : Nat} {ρ : Type} {expf : ℚ → ℚ} {idx : Fin k → Fin n} {attr : Fin k → ρ}
  {obj : Objective ρ} {spat : Fin n → Fin q → ℚ} {thr : Fin q → ℚ}

theorem layered_call (he : obj.Exact) (ht : obj.Total) {adj : Adj k} {L : Labels k} (hc : AllContiguous adj L)
    {a : Fin k} {r : Int} (hm : Admissible adj L a r) {v : ℚ} : ∀ {st : Strat n q},
    st.Layered spat thr v (obj.call L attr) →
    ∃ b st', (∀ rng, Strat.call expf idx attr obj st a r L rng = .ok (b, st', rng)) ∧
      (b = true ↔ (st.isMaxp = true → Dispensable (fun i => spat (idx i)) thr L a) ∧
        obj.call (moved L a r) attr ≤ obj.call L attr) ∧
      st'.Layered spat thr v (if b then obj.call (moved L a r) attr else obj.call L attr) ∧
      st'.isMaxp = st.isMaxp := by
  intro st
  induction st with
  | sa => intro h; exact h.elim
  | azp x =>
    intro h
    have hd := azp_decides (q := q) (expf := expf) (idx := idx) (attr := attr) he ht adj
    by_cases hal : obj.call (moved L a r) attr ≤ obj.call L attr
    · obtain ⟨st', h1, h2⟩ := hd.yes hc hm (st := .azp x) (congrArg Strat.azp h) hal
      unfold AzpTracks at h2
      subst h2
      exact ⟨true, _, h1, by simp [Strat.isMaxp, hal], rfl, rfl⟩
    · obtain ⟨st', h1, h2⟩ := hd.no hc hm (st := .azp x) (congrArg Strat.azp h) hal
      unfold AzpTracks at h2
      subst h2
      exact ⟨false, _, h1, by simp [hal], rfl, rfl⟩
  | maxp s t x inner ih =>
    rintro ⟨rfl, rfl, rfl, h⟩
    by_cases hb : Dispensable (fun i => s (idx i)) t L a
    · obtain ⟨b, st', h1, h2, h3, _⟩ := ih h
      refine ⟨b, .maxp s t x st', fun rng => ?_, ?_, ⟨rfl, rfl, rfl, h3⟩, rfl⟩
      · unfold Strat.call
        rw [maxpBlocks_iff.2 hb, if_neg (by simp), h1 rng]
      · rw [h2]
        simp [hb]
    · refine ⟨false, .maxp s t x inner, fun rng => ?_, by simp [Strat.isMaxp, hb], ⟨rfl, rfl, rfl, h⟩, rfl⟩
      rw [← maxpBlocks_iff, Bool.not_eq_false] at hb
      unfold Strat.call
      rw [if_pos hb]

/-- The default strategy inside at least one decorator. -/
theorem layered_decides (he : obj.Exact) (ht : obj.Total) (adj : Adj k) (spat : Fin n → Fin q → ℚ)
    (thr : Fin q → ℚ) (v : ℚ) :
    Decides (Strat.ops (q := q) expf idx attr obj) adj
      (fun L a r => Dispensable (fun i => spat (idx i)) thr L a ∧
        obj.call (moved L a r) attr ≤ obj.call L attr)
      (fun L st => st.Layered spat thr v (obj.call L attr) ∧ st.isMaxp = true) := by
  constructor
  · rintro L st a r hc hm ⟨hP, hx⟩ hal
    obtain ⟨b, st', h1, h2, h3, h4⟩ := layered_call (expf := expf) (idx := idx) he ht hc hm hP
    have hb : b = true := h2.2 ⟨fun _ => hal.1, hal.2⟩
    subst hb
    exact ⟨st', h1, h3, h4.trans hx⟩
  · rintro L st a r hc hm ⟨hP, hx⟩ hal
    obtain ⟨b, st', h1, h2, h3, h4⟩ := layered_call (expf := expf) (idx := idx) he ht hc hm hP
    have hb : b = false := by
      rw [← Bool.not_eq_true]
      intro h
      exact hal ⟨(h2.1 h).1 hx, (h2.1 h).2⟩
    subst hb
    exact ⟨st', h1, h3, h4.trans hx⟩

theorem layered_objVal {v w : ℚ} {st : Strat n q} (h : st.Layered spat thr v w) (hx : st.isMaxp = true) :
    st.objVal = v := by
  cases st with
  | azp => cases hx
  | sa => cases hx
  | maxp => exact h.2.2.1

end

end Region
