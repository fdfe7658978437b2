import Verif.Lemmas.AzpFit
/-
Lemmas about the allow-move strategies.
-/
namespace Region

open Spec Relation

/-- The `objective_val` of the object is the objective `f` of the current labels; that of a
decorator is the value `v0` it had at the start of the component. -/
def Strat.Tracks {n q k : Nat} (f : Labels k → ℚ) (v0 : ℚ) (labels : Labels k) :
    Strat n q → Prop
  | .azp v => v = f labels
  | .sa _ _ _ v _ _ => v = f labels
  | .maxp _ _ v inner => v = v0 ∧ Strat.Tracks f v0 labels inner

/-- The object is a Max-p decorator. -/
def Strat.isMaxp {n q : Nat} : Strat n q → Bool
  | .maxp .. => true
  | _ => false

theorem Strat.tracks_start {n q k : Nat} (f : Labels k → ℚ) (labels : Labels k) (st : Strat n q) :
    (st.start (f labels)).Tracks f (f labels) labels := by
  induction st with
  | azp v => rfl
  | sa => rfl
  | maxp _ _ _ inner ih => exact ⟨rfl, ih⟩

theorem Strat.isMaxp_start {n q : Nat} (v : ℚ) (st : Strat n q) :
    (st.start v).isMaxp = st.isMaxp := by
  cases st <;> rfl

theorem Strat.tracks_objVal {n q k : Nat} {f : Labels k → ℚ} {v0 : ℚ} {labels : Labels k}
    {st : Strat n q} (h : st.Tracks f v0 labels) :
    st.objVal = if st.isMaxp then v0 else f labels := by
  cases st with
  | azp v => exact h
  | sa => exact h
  | maxp _ _ _ inner => exact h.1

theorem Strat.call_post {n q k : Nat} {ρ : Type} (expf : ℚ → ℚ) (idx : Fin k → Fin n)
    (attr : Fin k → ρ) {obj : Objective ρ} (he : obj.Exact) (v0 : ℚ) {labels : Labels k}
    {a : Fin k} {r : Int} {d : ℚ} (hd : obj.update a r labels attr = some d) :
    ∀ (st : Strat n q) (rng : Rng), st.Tracks (fun l => obj.call l attr) v0 labels →
      (st.call expf idx attr obj a r labels rng).Post False False fun p =>
        p.2.1.Tracks (fun l => obj.call l attr) v0 (if p.1 then moved labels a r else labels) ∧
        p.2.1.isMaxp = st.isMaxp := by
  intro st
  have hx := he a r labels attr d hd
  induction st with
  | azp v =>
    intro rng h
    have h : v = obj.call labels attr := h
    unfold Strat.call
    rw [hd]
    dsimp only
    split_ifs
    · exact ⟨by change v + d = obj.call (moved labels a r) attr; rw [h, hx], rfl⟩
    · exact ⟨h, rfl⟩
  | sa t term m v al mm =>
    intro rng h
    have h : v = obj.call labels attr := h
    unfold Strat.call
    rw [hd]
    dsimp only
    split_ifs
    · exact ⟨by change v + d = obj.call (moved labels a r) attr; rw [h, hx], rfl⟩
    · split
      · exact ⟨by change v + d = obj.call (moved labels a r) attr; rw [h, hx], rfl⟩
      · exact ⟨h, rfl⟩
  | maxp spat thr v inner ih =>
    intro rng h
    unfold Strat.call
    generalize maxpBlocks _ _ _ _ = blocked
    cases blocked with
    | true => rw [if_pos rfl]; exact ⟨h, rfl⟩
    | false =>
      rw [if_neg (by simp)]
      have := ih rng h.2
      generalize Strat.call expf idx attr obj inner a r labels rng = x at this ⊢
      cases x with
      | ok p => exact ⟨⟨h.1, this.1⟩, rfl⟩
      | raise e => exact this.elim
      | timeout => exact this.elim

/-- The library's strategies meet the assumptions of the AZP lemmas. -/
theorem Strat.stratOk {n q k : Nat} {ρ : Type} (expf : ℚ → ℚ) (idx : Fin k → Fin n)
    (attr : Fin k → ρ) {obj : Objective ρ} (he : obj.Exact) (ht : obj.Total) (adj : Adj k)
    (v0 : ℚ) (b : Bool) :
    StratOk (Strat.ops (q := q) expf idx attr obj) adj
      (fun labels st => st.Tracks (fun l => obj.call l attr) v0 labels ∧ st.isMaxp = b)
      False False := by
  intro labels st a r rng _ hm hP
  obtain ⟨_, ⟨u, hu, _⟩, hb, _⟩ := hm
  obtain ⟨d, hd⟩ := ht a r labels attr ⟨u, hu⟩ hb
  apply (Strat.call_post expf idx attr he v0 hd st rng hP.1).mono id id
  rintro p ⟨h1, h2⟩
  exact ⟨h1, h2.trans hP.2⟩

/-- The default strategy allows a move exactly if it does not worsen the objective. -/
theorem azp_answer {n q k : Nat} {ρ : Type} {expf : ℚ → ℚ} {idx : Fin k → Fin n}
    {attr : Fin k → ρ} {obj : Objective ρ} (he : obj.Exact) {labels : Labels k} {a : Fin k}
    {r : Int} {v : ℚ} {rng rng' : Rng} {b : Bool} {st' : Strat n q}
    (h : Strat.call expf idx attr obj (.azp v) a r labels rng = .ok (b, st', rng')) :
    (b = true ↔ obj.call (moved labels a r) attr ≤ obj.call labels attr) ∧ rng' = rng ∧
      ∃ v', st' = .azp v' := by
  unfold Strat.call at h
  split at h
  · cases h
  · rename_i d hd
    rw [he a r labels attr d hd]
    split_ifs at h with hc
    · cases h
      exact ⟨⟨fun _ => by linarith, fun _ => rfl⟩, rfl, _, rfl⟩
    · cases h
      exact ⟨⟨(fun h => by cases h), (fun h => absurd (by linarith) hc)⟩, rfl, _, rfl⟩

end Region
