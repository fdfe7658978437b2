import Verif.SpecReactRun
import Verif.Lemmas.TabuExact
/-
The reactive tabu search and its result.
-/
namespace Region

open Spec Props

section
variable {V : Type} [Preorder V] [DecidableEq V] {adj : V → V → Bool} {value : (V → Int) → ℚ}

theorem reactStep_unique {x y y' : Search V} (h : ReactStep adj value x y) (h' : ReactStep adj value x y') :
    y = y' := by
  rcases h with ⟨m, h1, h2, h3⟩ | ⟨-, h1, rfl⟩ <;> rcases h' with ⟨m', h1', h2', h3'⟩ | ⟨-, h1', rfl⟩
  · cases best_unique h1 h1'
    exact sent_unique h3 h3'
  · exact absurd h2 (not_le.2 (h1' m h1.1))
  · exact absurd h2' (not_le.2 (h1 m' h1'.1))
  · rfl

theorem reactStep_open {x y : Search V} (h : ReactStep adj value x y) : ∃ m, Open adj (some 1) x m := by
  rcases h with ⟨m, h, -⟩ | ⟨h, -⟩
  · exact ⟨m, h.1⟩
  · exact h

theorem reactSteps_unique {init : V → Int} {j : Nat} {x x' : Search V} (h : ReactSteps adj value init j x)
    (h' : ReactSteps adj value init j x') : x = x' := by
  induction h generalizing x' with
  | start => cases h'; rfl
  | step _ h2 _ ih =>
    cases h' with
    | step g1 g2 _ =>
      cases ih g1
      exact reactStep_unique h2 g2

theorem reactSteps_prev {init : V → Int} {j i : Nat} {x : Search V} (h : ReactSteps adj value init j x) (hi : i < j) :
    ∃ w y, ReactSteps adj value init i w ∧ ReactStep adj value w y ∧ value y.labels < value w.labels := by
  induction h with
  | start => omega
  | @step j x y h1 h2 h3 ih =>
    by_cases hij : i = j
    · subst hij
      exact ⟨x, y, h1, h2, h3⟩
    · exact ih (by omega)

/-- A round that ends the search comes once only. -/
theorem reactLast_unique {limit : Nat} {init before before' after after' : V → Int} {first first' : Bool}
    (h : ReactLast adj value limit init first before after) (h' : ReactLast adj value limit init first' before' after') :
    first = first' ∧ before = before' ∧ after = after' := by
  obtain ⟨j, x, y, hj, h1, h2, h3, h4, rfl, rfl⟩ := h
  obtain ⟨j', x', y', hj', h1', h2', h3', h4', rfl, rfl⟩ := h'
  have key : ∀ {j j' : Nat} {x x' y : Search V}, ReactSteps adj value init j x → ReactStep adj value x y →
      (j + 1 = limit ∨ value x.labels ≤ value y.labels) → ReactSteps adj value init j' x' → j' < limit → ¬ j < j' := by
    intro j j' x x' y h1 h2 h3 h1' hj' hlt
    obtain ⟨w, z, g1, g2, g3⟩ := reactSteps_prev h1' hlt
    cases reactSteps_unique h1 g1
    cases reactStep_unique h2 g2
    rcases h3 with h3 | h3
    · omega
    · exact absurd g3 (not_lt.2 h3)
  have : j = j' := by
    have := key h1 h2 h3 h1' hj'
    have := key h1' h2' h3' h1 hj
    omega
  subst this
  cases reactSteps_unique h1 h1'
  cases reactStep_unique h2 h2'
  exact ⟨Bool.eq_iff_iff.2 (h4.trans h4'.symm), rfl, rfl⟩

theorem reactResult_unique {limit : Nat} {init out out' : V → Int} (h : ReactResult adj value limit init out)
    (h' : ReactResult adj value limit init out') : out = out' := by
  obtain ⟨_, _, _, h, rfl⟩ := h
  obtain ⟨_, _, _, h', rfl⟩ := h'
  obtain ⟨rfl, rfl, rfl⟩ := reactLast_unique h h'
  rfl

theorem reactLast_not_fails {limit : Nat} {init before after : V → Int} {first : Bool}
    (h : ReactLast adj value limit init first before after) (h' : ReactFails adj value limit init) : False := by
  obtain ⟨j, x, y, hj, h1, h2, h3, -, rfl, rfl⟩ := h
  obtain ⟨j', x', hj', h1', h2'⟩ := h'
  rcases lt_trichotomy j j' with hlt | rfl | hlt
  · obtain ⟨w, z, g1, g2, g3⟩ := reactSteps_prev h1' hlt
    cases reactSteps_unique h1 g1
    cases reactStep_unique h2 g2
    rcases h3 with h3 | h3
    · omega
    · exact absurd g3 (not_lt.2 h3)
  · cases reactSteps_unique h1 h1'
    obtain ⟨m, hm⟩ := reactStep_open h2
    exact h2' m hm
  · obtain ⟨w, z, g1, g2, g3⟩ := reactSteps_prev h1 hlt
    cases reactSteps_unique h1' g1
    obtain ⟨m, hm⟩ := reactStep_open g2
    exact h2' m hm

theorem reactResult_not_fails {limit : Nat} {init out : V → Int} (h : ReactResult adj value limit init out)
    (h' : ReactFails adj value limit init) : False := by
  obtain ⟨_, _, _, h, -⟩ := h
  exact reactLast_not_fails h h'

end

/-! ### Only the order of the values counts -/

section
variable {V : Type} [LT V] [DecidableEq V] {adj : V → V → Bool} {value value' : (V → Int) → ℚ}
  (hv : ∀ L L', value' L < value' L' ↔ value L < value L')
include hv

theorem reactStep_order {x y : Search V} : ReactStep adj value' x y ↔ ReactStep adj value x y := by
  have hle : ∀ L L', value' L ≤ value' L' ↔ value L ≤ value L' := fun L L' => by rw [← not_lt, ← not_lt, hv]
  have heq : ∀ L L', value' L = value' L' ↔ value L = value L' := fun L L' => by
    rw [le_antisymm_iff, le_antisymm_iff, hle, hle]
  unfold ReactStep Descends Stuck Best
  simp only [hv, hle, heq]

theorem reactSteps_order {init : V → Int} {j : Nat} {x : Search V} :
    ReactSteps adj value' init j x ↔ ReactSteps adj value init j x := by
  constructor
  · intro h
    induction h with
    | start => exact .start
    | step _ h2 h3 ih => exact .step ih ((reactStep_order hv).1 h2) ((hv _ _).1 h3)
  · intro h
    induction h with
    | start => exact .start
    | step _ h2 h3 ih => exact .step ih ((reactStep_order hv).2 h2) ((hv _ _).2 h3)

theorem reactLast_order {limit : Nat} {init before after : V → Int} {first : Bool} :
    ReactLast adj value' limit init first before after ↔ ReactLast adj value limit init first before after := by
  have hle : ∀ L L', value' L ≤ value' L' ↔ value L ≤ value L' := fun L L' => by rw [← not_lt, ← not_lt, hv]
  unfold ReactLast
  simp only [reactSteps_order hv, reactStep_order hv, hle]

theorem reactResult_order {limit : Nat} {init out : V → Int} :
    ReactResult adj value' limit init out ↔ ReactResult adj value limit init out := by
  unfold ReactResult
  simp only [reactLast_order hv]

theorem reactFails_order {limit : Nat} {init : V → Int} :
    ReactFails adj value' limit init ↔ ReactFails adj value limit init := by
  unfold ReactFails
  simp only [reactSteps_order hv]

end

/-! ### The program -/

section
variable {n q k : Nat} {ρ : Type} {obj : Objective ρ} {attr : Fin k → ρ} {adj : Adj k} {expf : ℚ → ℚ}
  {idx : Fin k → Fin n} {k1 k2 : Int} {avg : ℚ} {init : Labels k} {pre : List (List Int)}

/-- The same search with other records. -/
def withSeen (seen : List (Labels k)) (x : Search (Fin k)) : Search (Fin k) := ⟨x.labels, x.barred, seen, x.due⟩

theorem reactStep_seen {value : Labels k → ℚ} {x y : Search (Fin k)} (seen : List (Labels k))
    (h : ReactStep adj value x y) : ReactStep adj value (withSeen seen x) (withSeen seen y) := by
  rcases h with ⟨m, h1, h2, h3, h4, h5, h6, h7⟩ | ⟨h1, h2, rfl⟩
  · exact .inl ⟨m, h1, h2, h3, rfl, h5, h6, h7⟩
  · exact .inr ⟨h1, h2, rfl⟩

/-- The records have no influence on a move. -/
theorem tryMove_other_records {σ : Type} {ops : StratOps σ k} {m : Move k} {s s' : TabuState σ k} {al : Bool}
    (h : tryMove ops adj m s = .ok (al, s')) (w : List (List Int)) :
    tryMove ops adj m { s with visited := w } = .ok (al, { s' with visited := w }) := by
  unfold tryMove at h ⊢
  dsimp only at h ⊢
  rw [Res.bind_eq_ok] at h
  obtain ⟨⟨allowed, st, rng⟩, h1, h2⟩ := h
  rw [h1, Res.bind_ok]
  dsimp only at h2 ⊢
  cases allowed with
  | false =>
    rw [if_neg (by simp)] at h2 ⊢
    cases h2
    rfl
  | true =>
    rw [if_pos rfl] at h2 ⊢
    rw [Res.bind_eq_ok] at h2
    obtain ⟨⟨b, l, t⟩, h3, h4⟩ := h2
    rw [h3, Res.bind_ok]
    cases h4
    rfl

theorem reactRound_step (he : obj.Exact) (ht : obj.Total)
    (hs : Spec.Symmetric adj) (hk1 : 1 ≤ k1) (hpre : ∀ l ∈ pre, ∀ r ∈ l, ∀ v, init v ≠ r)
    {x : Search (Fin k)} {s : TabuState (Strat n q) k} (hx : Shows (some 1) x s)
    (hc : AllContiguous adj x.labels) (hr : ∀ v, ∃ u, x.labels v = init u) (hnd : x.seen.Nodup) :
    ((∀ m, ¬ Open adj (some 1) x m) ∧
      reactRound (Strat.ops expf idx attr obj) obj attr adj k1 k2 avg { s with visited := pre ++ s.visited } =
        .raise .attributeError) ∨
    ∃ y s', ReactStep adj (fun L => obj.call L attr) x y ∧ AllContiguous adj y.labels ∧
      (∀ v, ∃ u, y.labels v = init u) ∧ y.seen = x.seen ∧ y.due = x.due ∧
      Shows (some 1) ⟨y.labels, y.barred, x.seen ++ [y.labels], x.due⟩ s' ∧
      reactRound (Strat.ops expf idx attr obj) obj attr adj k1 k2 avg { s with visited := pre ++ s.visited } =
        .ok (.ten, { s' with visited := pre ++ s'.visited }) := by
  have hc' : AllContiguous adj s.labels := by rw [hx.labels]; exact hc
  obtain ⟨b, hb, ⟨rfl, hnone⟩ | ⟨j, m, d, rfl, hd, hbest, hadm⟩⟩ :=
    bestMove_best he ht (attr := attr) hs hx
  · refine .inl ⟨hnone, ?_⟩
    unfold reactRound
    dsimp only
    rw [hb, Res.bind_ok]
  · right
    have hv := (exact_value he hd).1
    rw [hx.labels] at hv hadm
    have fin : ∀ {y : Search (Fin k)} {s1 : TabuState (Strat n q) k} {al : Bool}, Shows (some 1) y s1 →
        y.seen = x.seen → y.due = x.due → (∀ v, ∃ u, y.labels v = init u) →
        tryMove (Strat.ops expf idx attr obj) adj m s = .ok (al, s1) →
        ∃ s', Shows (some 1) ⟨y.labels, y.barred, x.seen ++ [y.labels], x.due⟩ s' ∧
          reactRound (Strat.ops expf idx attr obj) obj attr adj k1 k2 avg { s with visited := pre ++ s.visited } =
            .ok (.ten, { s' with visited := pre ++ s'.visited }) := by
      intro y s1 al hy hseen hdue hrange htry
      have hvis : s1.visited = s.visited := by rw [hy.seen, hx.seen, hseen]
      refine ⟨{ s1 with visited := s1.visited ++ [arrayList s1.labels] },
        ⟨hy.labels, hy.maxlen, hy.tabu, ?_, hdue ▸ hy.stop, hy.strat⟩, ?_⟩
      · dsimp only
        rw [hy.seen, hseen, hy.labels, List.map_append, List.map_cons, List.map_nil]
      · have hnot : arrayList s1.labels ∉ pre := by
          intro hm
          rw [hy.labels] at hm
          obtain ⟨u, hu⟩ := hrange m.area
          exact hpre _ hm (y.labels m.area) (mem_arrayList.2 ⟨_, rfl⟩) u hu.symm
        have hcount : ¬ k1 < ((pre ++ s.visited).count (arrayList s1.labels) : Int) := by
          rw [List.count_append, List.count_eq_zero.2 hnot, Nat.zero_add, ← hvis, hy.seen, hy.labels, count_seen, hseen]
          have := List.nodup_iff_count_le_one.1 hnd y.labels
          omega
        unfold reactRound
        dsimp only
        rw [hb, Res.bind_ok]
        dsimp only
        rw [tryMove_other_records htry, Res.bind_ok]
        dsimp only
        rw [if_neg hcount, hvis, ← List.append_assoc]
        split_ifs <;> rfl
    by_cases hle : d ≤ 0
    · obtain ⟨y, s1, g1, g2, g3⟩ := tryMove_sent (expf := expf) (idx := idx) hx hc' hd hle
      have htry := g3 s.rng
      rw [show ({ s with rng := s.rng } : TabuState (Strat n q) k) = s from rfl] at htry
      have hrange : ∀ v, ∃ u, y.labels v = init u := by
        intro v
        by_cases hcc : AllContiguous adj (moved x.labels m.area m.new)
        · rw [g1.2.2.2.1 hcc]
          unfold moved
          split_ifs with hva
          · obtain ⟨u, hu, -⟩ := hadm.2.1
            rw [← hu]
            exact hr u
          · exact hr v
        · rw [g1.2.2.2.2 hcc]
          exact hr v
      obtain ⟨s', h1, h2⟩ := fin (g2.rng _) g1.2.1 g1.2.2.1 hrange htry
      refine ⟨y, s', .inl ⟨m.shift, hbest, hv.1 hle, g1⟩, ?_, hrange, g1.2.1, g1.2.2.1, h1, h2⟩
      by_cases hcc : AllContiguous adj (moved x.labels m.area m.new)
      · rw [g1.2.2.2.1 hcc]; exact hcc
      · rw [g1.2.2.2.2 hcc]; exact hc
    · have htry := tryMove_refused (expf := expf) (idx := idx) (adj := adj) hx hd (not_le.1 hle) s.rng
      rw [show ({ s with rng := s.rng } : TabuState (Strat n q) k) = s from rfl] at htry
      obtain ⟨s', h1, h2⟩ := fin hx rfl rfl hr htry
      refine ⟨x, s', .inr ⟨⟨_, hbest.1⟩, fun m' hm' => ?_, rfl⟩, hc, hr, rfl, rfl, h1, h2⟩
      have hlt : obj.call x.labels attr < obj.call (moved x.labels m.area m.new) attr := not_le.1 fun h => hle (hv.2 h)
      rcases hbest.2 m' hm' with rfl | h | ⟨h, -⟩
      · exact hlt
      · exact lt_trans hlt h
      · exact lt_of_lt_of_eq hlt h

/-- What the loop says in the end. -/
def ReactOut (adj : Adj k) (obj : Objective ρ) (attr : Fin k → ρ) (limit : Nat) (init : Labels k)
    (pre : List (List Int)) : Res (Option LastStep × TabuState (Strat n q) k) → Prop
  | .ok (last, s) => last = some .ten ∧ (∃ v, s.strat = .azp v) ∧ ∃ first before after vs,
      ReactLast adj (fun L => obj.call L attr) limit init first before after ∧
      s.visited = pre ++ (vs ++ [after]).map arrayList ∧ (∀ L ∈ vs ++ [after], ∀ v, ∃ u, L v = init u) ∧
      if first = true then vs = [] else ∃ us, vs = us ++ [before]
  | .raise e => e = .attributeError ∧ ReactFails adj (fun L => obj.call L attr) limit init
  | .timeout => False

/-- The loop after its first round. -/
theorem reactLoop_exact (he : obj.Exact) (ht : obj.Total) (hs : Spec.Symmetric adj) (hk1 : 1 ≤ k1)
    (hpre : ∀ l ∈ pre, ∀ r ∈ l, ∀ v, init v ≠ r) : ∀ (it j limit : Nat), j + 1 + it = limit →
    ∀ {w x : Search (Fin k)} {vs : List (Labels k)} {s : TabuState (Strat n q) k},
    ReactSteps adj (fun L => obj.call L attr) init j w →
    ReactStep adj (fun L => obj.call L attr) w x →
    Shows (some 1) (withSeen (vs ++ [x.labels]) x) s → AllContiguous adj x.labels → x.seen = [] → x.due = False →
    (j = 0 ∧ vs = [] ∨ j ≠ 0 ∧ ∃ us, vs = us ++ [w.labels]) →
    (∀ v ∈ vs, obj.call w.labels attr ≤ obj.call v attr) → vs.Nodup →
    (∀ L ∈ vs ++ [x.labels], ∀ v, ∃ u, L v = init u) →
    ReactOut adj obj attr limit init pre (reactLoop (Strat.ops expf idx attr obj) obj attr
      adj k1 k2 avg it (some (obj.call w.labels attr)) (some .ten) { s with visited := pre ++ s.visited }) := by
  have fin : ∀ {j limit : Nat} {w x : Search (Fin k)} {vs : List (Labels k)} {s : TabuState (Strat n q) k},
      j + 1 ≤ limit → ReactSteps adj (fun L => obj.call L attr) init j w →
      ReactStep adj (fun L => obj.call L attr) w x →
      (j + 1 = limit ∨ obj.call w.labels attr ≤ obj.call x.labels attr) →
      Shows (some 1) (withSeen (vs ++ [x.labels]) x) s →
      (j = 0 ∧ vs = [] ∨ j ≠ 0 ∧ ∃ us, vs = us ++ [w.labels]) →
      (∀ L ∈ vs ++ [x.labels], ∀ v, ∃ u, L v = init u) →
      ReactOut adj obj attr limit init pre (.ok (some .ten, { s with visited := pre ++ s.visited })) := by
    intro j limit w x vs s hj h1 h2 h3 hx hvs hran
    refine ⟨rfl, hx.strat, decide (j = 0), w.labels, x.labels, vs, ⟨j, w, x, hj, h1, h2, h3, by simp, rfl, rfl⟩, ?_,
      hran, ?_⟩
    · dsimp only
      rw [hx.seen]
      rfl
    · rcases hvs with ⟨rfl, rfl⟩ | ⟨hj0, us, rfl⟩
      · simp
      · rw [if_neg (by simpa using hj0)]
        exact ⟨us, rfl⟩
  intro it
  induction it with
  | zero =>
    intro j limit hl w x vs s h1 h2 hx hc _ _ hvs _ _ hran
    exact fin (by omega) h1 h2 (.inl (by omega)) hx hvs hran
  | succ it ih =>
    intro j limit hl w x vs s h1 h2 hx hc hseen hdue hvs hval hnd hran
    unfold reactLoop
    dsimp only
    have hlab : s.labels = x.labels := hx.labels
    rw [hlab]
    by_cases hlt : obj.call x.labels attr < obj.call w.labels attr
    · have himp : improving (some (obj.call w.labels attr)) (obj.call x.labels attr) = true := by
        simp [improving, hlt]
      rw [if_pos himp]
      have hnot : x.labels ∉ vs := fun hm => absurd hlt (not_lt.2 (hval _ hm))
      have hnd' : (vs ++ [x.labels]).Nodup := by
        rw [List.nodup_append]
        refine ⟨hnd, List.nodup_singleton _, ?_⟩
        rintro a ha b hb rfl
        rw [List.mem_singleton] at hb
        exact hnot (hb ▸ ha)
      rcases reactRound_step (attr := attr) (expf := expf) (idx := idx) (k2 := k2) (avg := avg) he ht hs hk1 hpre hx hc
        (hran x.labels (by simp)) hnd' with ⟨hno, hr⟩ | ⟨y, s', g1, g2, g0, g3, g4, g5, hr⟩
      · rw [show ({ s with visited := pre ++ s.visited } : TabuState (Strat n q) k) =
          ⟨s.labels, s.tabu, pre ++ s.visited, s.stop, s.strat, s.rng⟩ from rfl, hlab] at hr
        rw [hr]
        exact ⟨rfl, j + 1, x, by omega, .step h1 h2 hlt, hno⟩
      · rw [show ({ s with visited := pre ++ s.visited } : TabuState (Strat n q) k) =
          ⟨s.labels, s.tabu, pre ++ s.visited, s.stop, s.strat, s.rng⟩ from rfl, hlab] at hr
        rw [hr, Res.bind_ok]
        dsimp only
        have hxe : withSeen [] (withSeen (vs ++ [x.labels]) x) = x := by
          cases x
          cases hseen
          rfl
        have hstep := reactStep_seen [] g1
        rw [hxe] at hstep
        refine ih (j + 1) limit (by omega) (.step h1 h2 hlt) hstep (vs := vs ++ [x.labels]) ?_ g2 rfl ?_
          (.inr ⟨by omega, vs, rfl⟩) ?_ hnd' ?_
        · have : withSeen ((vs ++ [x.labels]) ++ [(withSeen [] y).labels]) (withSeen [] y) =
              ⟨y.labels, y.barred, (withSeen (vs ++ [x.labels]) x).seen ++ [y.labels],
                (withSeen (vs ++ [x.labels]) x).due⟩ := by
            unfold withSeen
            dsimp only
            rw [g4]
            rfl
          rw [this]
          exact g5
        · exact g4.trans hdue
        · intro v hv
          rcases List.mem_append.1 hv with hv | hv
          · exact hlt.le.trans (hval v hv)
          · rw [List.mem_singleton.1 hv]
        · intro L hL
          rcases List.mem_append.1 hL with hL | hL
          · exact hran L hL
          · rw [List.mem_singleton.1 hL]
            exact g0
    · have himp : ¬ improving (some (obj.call w.labels attr)) (obj.call x.labels attr) = true := by
        simp [improving, hlt]
      rw [if_neg himp]
      exact fin (by omega) h1 h2 (.inr (not_lt.1 hlt)) hx hvs hran

/-- A whole run.  Clusterings recorded before must have other labels. -/
theorem reactComponentList_records (he : obj.Exact) (ht : obj.Total)
    (hs : Spec.Symmetric adj) (hk1 : 1 ≤ k1) (hc : AllContiguous adj init)
    (hn : numRegions init ≠ 1) {maxIt : Nat} (hm : 1 ≤ maxIt) (self : ReactObj (Strat n q))
    (hpre : ∀ l ∈ self.visited, ∀ r ∈ l, ∀ v, init v ≠ r) (hst : ∃ v, self.strat = .azp v) :
    (reactComponentList (Strat.ops expf idx attr obj) obj attr adj maxIt k1 k2 init self =
        .raise .attributeError ∧ ReactFails adj (fun L => obj.call L attr) maxIt init) ∨
    ∃ first before after out self', reactComponentList (Strat.ops expf idx attr obj) obj attr adj maxIt k1 k2
        init self = .ok (out, self') ∧
      ReactLast adj (fun L => obj.call L attr) maxIt init first before after ∧
      out = (if first = true then (self.visited.getLast?).getD (arrayList after) else arrayList before) ∧
      self'.visited.getLast? = some (arrayList after) ∧ (∃ v, self'.strat = .azp v) ∧
      (∀ l ∈ self'.visited, l ∈ self.visited ∨ ∃ L : Labels k, l = arrayList L ∧ ∀ v, ∃ u, L v = init u) ∧
      ∀ v, ∃ u, after v = init u := by
  obtain ⟨it, rfl⟩ : ∃ it, maxIt = it + 1 := ⟨maxIt - 1, by omega⟩
  have hloop : ReactOut adj obj attr (it + 1) init self.visited (reactLoop (Strat.ops expf idx attr obj)
      obj attr adj k1 k2 self.avg (it + 1) none none
      { labels := init, tabu := ⟨[], some 1⟩, visited := self.visited, stop := false,
        strat := self.strat, rng := self.rng }) := by
    have hx : Shows (some 1) ⟨init, [], [], False⟩ (⟨init, ⟨[], some 1⟩, [], false, self.strat, self.rng⟩ :
        TabuState (Strat n q) k) :=
      ⟨rfl, rfl, rfl, rfl, by simp, hst⟩
    unfold reactLoop
    dsimp only
    rw [if_pos (by simp [improving])]
    rcases reactRound_step (attr := attr) (expf := expf) (idx := idx) (k2 := k2) (avg := self.avg) he ht hs hk1 hpre hx
      hc (fun v => ⟨v, rfl⟩) List.nodup_nil with ⟨hno, hr⟩ | ⟨y, s', g1, g2, g0, g3, g4, g5, hr⟩
    · dsimp only at hr
      rw [List.append_nil] at hr
      rw [hr]
      exact ⟨rfl, 0, _, by omega, .start, hno⟩
    · dsimp only at hr
      rw [List.append_nil] at hr
      rw [hr, Res.bind_ok]
      dsimp only
      refine reactLoop_exact he ht hs hk1 hpre it 0 (it + 1) (by omega) .start g1 (vs := []) ?_ g2 g3 g4
        (.inl ⟨rfl, rfl⟩) (by simp) List.nodup_nil ?_
      · have : withSeen ([] ++ [y.labels]) y = ⟨y.labels, y.barred, [] ++ [y.labels], False⟩ := by
          unfold withSeen
          rw [g4]
        rw [this]
        exact g5
      · intro L hL
        rw [List.nil_append, List.mem_singleton] at hL
        rw [hL]
        exact g0
  unfold reactComponentList
  rw [length_unique_labels, if_neg hn]
  revert hloop
  generalize reactLoop (Strat.ops expf idx attr obj) obj attr adj k1 k2 self.avg (it + 1)
    none none _ = r
  intro hloop
  rcases r with ⟨last, s⟩ | e | _
  · obtain ⟨h, hst', first, before, after, vs, h1, h2, h3, h4⟩ := hloop
    subst h
    refine .inr ⟨first, before, after, _, { self with visited := s.visited, strat := s.strat, rng := s.rng }, ?_, h1, rfl,
      ?_, hst', ?_, h3 after (by simp)⟩
    · rw [Res.bind_ok]
      dsimp only
      have : reactResult s.visited (some .ten) =
          .ok (if first = true then (self.visited.getLast?).getD (arrayList after) else arrayList before) := by
        rw [h2]
        unfold reactResult
        dsimp only
        cases first with
        | true =>
          rw [if_pos rfl] at h4 ⊢
          subst h4
          rcases List.eq_nil_or_concat self.visited with h | ⟨us, l, h⟩
          · rw [h]; simp
          · rw [h]; simp
        | false =>
          rw [if_neg (by simp)] at h4 ⊢
          obtain ⟨us, rfl⟩ := h4
          simp
      rw [this, Res.bind_ok]
    · dsimp only
      rw [h2]
      simp
    · intro l hl
      dsimp only at hl
      rw [h2, List.mem_append, List.mem_map] at hl
      rcases hl with hl | ⟨L, hL, rfl⟩
      · exact .inl hl
      · exact .inr ⟨L, rfl, h3 L hL⟩
  · obtain ⟨h, h1⟩ := hloop
    subst h
    exact .inl ⟨rfl, h1⟩
  · exact hloop.elim

/-- A whole run on a new object. -/
theorem reactComponentList_exact (he : obj.Exact) (ht : obj.Total)
    (hs : Spec.Symmetric adj) (hk1 : 1 ≤ k1) (hc : AllContiguous adj init)
    (hn : numRegions init ≠ 1) {maxIt : Nat} (hm : 1 ≤ maxIt) (self : ReactObj (Strat n q)) (hvis : self.visited = [])
    (hst : ∃ v, self.strat = .azp v) :
    (reactComponentList (Strat.ops expf idx attr obj) obj attr adj maxIt k1 k2 init self =
        .raise .attributeError ∧ ReactFails adj (fun L => obj.call L attr) maxIt init) ∨
    ∃ out self', reactComponentList (Strat.ops expf idx attr obj) obj attr adj maxIt k1 k2
        init self = .ok (arrayList out, self') ∧
      ReactResult adj (fun L => obj.call L attr) maxIt init out := by
  rcases reactComponentList_records (expf := expf) (idx := idx) (attr := attr) (k2 := k2) he ht hs hk1 hc hn hm self
    (by rw [hvis]; simp) hst with h | ⟨first, before, after, out, self', h1, h2, h3, -⟩
  · exact .inl h
  · refine .inr ⟨_, self', ?_, first, before, after, h2, rfl⟩
    rw [h1, h3, hvis]
    cases first <;> rfl

end

end Region
