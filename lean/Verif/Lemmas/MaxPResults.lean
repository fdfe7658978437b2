import Verif.Lemmas.MaxPConstruct
import Verif.Lemmas.MaxPFit
/-
All possible results of the max-p heuristic: the construction phase and the search phase.
-/
namespace Region

open Spec Res

section Construct
variable {n q : Nat} {ρ : Type} {metric : ρ → ρ → ℚ} {adj : Adj n} {attr : Fin n → ρ}
  {spat : Fin n → Fin q → ℚ} {thr : Fin q → ℚ}

/-- What a run of `grow_regions` leaves, as sets. -/
def sets (pe : List (List (Fin n)) × List (Fin n)) : List (Finset (Fin n)) × Finset (Fin n) :=
  (pe.1.map List.toFinset, pe.2.toFinset)

theorem growInv_start : GrowInv adj spat thr [] [] (List.finRange n) [] :=
  ⟨by simp, by simp, (fun _ h => by cases h), (fun _ _ _ h => by cases h), (fun _ h => by cases h)⟩

theorem growRegions_sound (hs : Symmetric adj) (hloop : ∀ v, adj v v = false) {r : Rng}
    {pe : List (List (Fin n)) × List (Fin n)} {r' : Rng}
    (h : growRegions metric adj attr spat thr r = .ok (pe, r')) :
    Constructed adj (dist metric attr) spat thr [] ∅ Finset.univ (sets pe).1 (sets pe).2 ∧
      Partial adj (fun _ => True) pe.1 pe.2 := by
  have hU : (List.finRange n).toFinset = Finset.univ := by ext; simp
  have h1 := growLoop_sound (P' := pe.1) (E' := pe.2) hs hloop n growInv_start h
  rw [hU] at h1
  obtain ⟨A, hA⟩ := (growLoop_post metric adj attr spat thr hs hloop n [] [] (List.finRange n) [] r
    growInv_start (by simp)).ok h
  exact ⟨h1, by simpa using hA.perm, fun reg h => (hA.good reg h).1, fun _ _ => trivial⟩

theorem growRegions_complete (hs : Symmetric adj) (hloop : ∀ v, adj v v = false)
    {run : List (Finset (Fin n)) × Finset (Fin n)}
    (h : Constructed adj (dist metric attr) spat thr [] ∅ Finset.univ run.1 run.2) :
    ∃ pe, sets pe = run ∧ ∀ r', ∃ r, growRegions metric adj attr spat thr r = .ok (pe, r') := by
  have hU : (List.finRange n).toFinset = Finset.univ := by ext; simp
  obtain ⟨P', E', h1, h2, h3⟩ := growLoop_complete hs hloop h n growInv_start rfl rfl hU (by simp)
  exact ⟨(P', E'), Prod.ext h1 h2, h3⟩

theorem growRuns_sound (hs : Symmetric adj) (hloop : ∀ v, adj v v = false) : ∀ (it : Nat) {r : Rng}
    {runs : List (List (List (Fin n)) × List (Fin n))} {r' : Rng},
    growRuns metric adj attr spat thr it r = .ok (runs, r') →
    runs.length = it ∧ ∀ pe ∈ runs, Constructed adj (dist metric attr) spat thr [] ∅ Finset.univ (sets pe).1
      (sets pe).2 ∧ Partial adj (fun _ => True) pe.1 pe.2 := by
  intro it
  induction it with
  | zero => intro r runs r' h; unfold growRuns at h; cases h; exact ⟨rfl, fun _ h => by cases h⟩
  | succ it ih =>
    intro r runs r' h
    unfold growRuns at h
    rw [Res.bind_eq_ok] at h
    obtain ⟨⟨pe, r1⟩, h1, h2⟩ := h
    dsimp only at h2
    rw [Res.bind_eq_ok] at h2
    obtain ⟨⟨pes, r2⟩, h2, h3⟩ := h2
    cases h3
    obtain ⟨h4, h5⟩ := ih h2
    refine ⟨by simp [h4], fun x hx => ?_⟩
    rcases List.mem_cons.1 hx with rfl | hx
    · exact growRegions_sound hs hloop h1
    · exact h5 x hx

theorem growRuns_complete (hs : Symmetric adj) (hloop : ∀ v, adj v v = false) :
    ∀ {runs : List (List (Finset (Fin n)) × Finset (Fin n))},
    (∀ run ∈ runs, Constructed adj (dist metric attr) spat thr [] ∅ Finset.univ run.1 run.2) →
    ∃ pes, pes.map sets = runs ∧
      ∀ r', ∃ r, growRuns metric adj attr spat thr runs.length r = .ok (pes, r') := by
  intro runs
  induction runs with
  | nil => intro _; exact ⟨[], rfl, fun r' => ⟨r', rfl⟩⟩
  | cons run runs ih =>
    intro h
    obtain ⟨pes, h1, h2⟩ := ih fun x hx => h x (by simp [hx])
    obtain ⟨pe, h3, h4⟩ := growRegions_complete hs hloop (h run (by simp))
    refine ⟨pe :: pes, by simp [h1, h3], fun r' => ?_⟩
    obtain ⟨r1, h2⟩ := h2 r'
    obtain ⟨r, h4⟩ := h4 r1
    refine ⟨r, ?_⟩
    rw [List.length_cons]
    unfold growRuns
    rw [h4, Res.bind_ok]
    dsimp only
    rw [h2, Res.bind_ok]

theorem assignAll_sound (hs : Symmetric adj) : ∀ {kept : List (List (List (Fin n)) × List (Fin n))} {r : Rng}
    {ps : List (List (List (Fin n)))} {r' : Rng}, (∀ pe ∈ kept, Partial adj (fun _ => True) pe.1 pe.2) →
    assignAll metric adj attr kept r = .ok (ps, r') →
    List.Forall₂ (fun pe P => Absorbed adj (dist metric attr) (sets pe).1 (sets pe).2 (P.map List.toFinset) ∧
      Partial adj (fun _ => True) P []) kept ps := by
  intro kept
  induction kept with
  | nil => intro r ps r' _ h; unfold assignAll at h; cases h; exact .nil
  | cons pe kept ih =>
    intro r ps r' hp h
    unfold assignAll at h
    rw [Res.bind_eq_ok] at h
    obtain ⟨⟨P, r1⟩, h1, h2⟩ := h
    dsimp only at h2
    rw [Res.bind_eq_ok] at h2
    obtain ⟨⟨Ps, r2⟩, h2, h3⟩ := h2
    cases h3
    have hpe := hp pe (by simp)
    refine .cons ⟨assignLoop_sound hs _ hpe h1, ?_⟩ (ih (fun x hx => hp x (by simp [hx])) h2)
    have := (assignLoop_post metric adj attr hs (G := fun _ => True) (fun _ _ _ => trivial)
      (R := True) pe.2.length pe.1 pe.2 r hpe le_rfl (fun h => (h trivial).elim)).ok h1
    exact this.1

theorem assignAll_complete (hs : Symmetric adj) : ∀ {kept : List (List (List (Fin n)) × List (Fin n))}
    {parts : List (List (Finset (Fin n)))}, (∀ pe ∈ kept, Partial adj (fun _ => True) pe.1 pe.2) →
    List.Forall₂ (fun run P => Absorbed adj (dist metric attr) run.1 run.2 P) (kept.map sets) parts →
    ∃ ps, ps.map (List.map List.toFinset) = parts ∧
      ∀ r', ∃ r, assignAll metric adj attr kept r = .ok (ps, r') := by
  intro kept
  induction kept with
  | nil =>
    intro parts _ h
    cases h
    exact ⟨[], rfl, fun r' => ⟨r', rfl⟩⟩
  | cons pe kept ih =>
    intro parts hp h
    rw [List.map_cons] at h
    cases h with
    | cons h1 h2 =>
      obtain ⟨ps, h3, h4⟩ := ih (fun x hx => hp x (by simp [hx])) h2
      obtain ⟨P, h5, h6⟩ := assignLoop_complete hs h1 pe.2.length (hp pe (by simp)) rfl rfl le_rfl
      refine ⟨P :: ps, by rw [List.map_cons, h3, h5], fun r' => ?_⟩
      obtain ⟨r1, h4⟩ := h4 r'
      obtain ⟨r, h6⟩ := h6 r1
      refine ⟨r, ?_⟩
      unfold assignAll
      have : assignEnclaves metric adj attr pe.1 pe.2 r = .ok (P, r1) := h6
      rw [this, Res.bind_ok]
      dsimp only
      rw [h4, Res.bind_ok]

end Construct

section Search
variable {ς : Type} {n q : Nat} {ρ : Type} (ls : LocalSearch ς n q) (obj : Objective ρ) (attr : Fin n → ρ)
  (maxP : Nat) (I : Labels n → Prop) (S S0 : ς → Prop) (Z : Labels n → Labels n → Prop)

/-- From starts of the kind `I` the local search can end with what `Z` says and nothing else. -/
structure ExactSearch : Prop where
  sound : ∀ init st r out st' r', I init → S st → ls.fit maxP init st r = .ok (out, st', r') →
    ∃ L, out = some L ∧ Z init L ∧ S st'
  complete : ∀ init st L, I init → S st → Z init L →
    ∃ st', S st' ∧ ∀ r', ∃ r, ls.fit maxP init st r = .ok (some L, st', r')

/-- One step of the choice of the best result. -/
def pickBest (best : Option (Labels n × ℚ)) (L : Labels n) : Option (Labels n × ℚ) :=
  match best with
  | none => some (L, obj.call L attr)
  | some (L', v') => if obj.call L attr < v' then some (L, obj.call L attr) else some (L', v')

/-- A result of the local search from the partition. -/
def FromPart (P : List (List (Fin n))) (L : Labels n) : Prop := ∃ init, labelsOfPartition P = .ok init ∧ Z init L

variable {ls obj attr maxP I S S0 Z}

theorem searchInner_sound (hx : ExactSearch ls maxP I S Z) : ∀ {ps : List (List (List (Fin n)))}
    {best : Option (Labels n × ℚ)} {st : ς} {r : Rng} {best' : Option (Labels n × ℚ)} {st' : ς} {r' : Rng},
    (∀ P ∈ ps, ∀ L, labelsOfPartition P = .ok L → I L) → S st →
    searchInner ls obj attr maxP ps best st r = .ok (best', st', r') →
    ∃ Ls, List.Forall₂ (FromPart Z) ps Ls ∧ best' = Ls.foldl (pickBest obj attr) best ∧ S st' := by
  intro ps
  induction ps with
  | nil =>
    intro best st r best' st' r' _ hst h
    unfold searchInner at h
    cases h
    exact ⟨[], .nil, rfl, hst⟩
  | cons P ps ih =>
    intro best st r best' st' r' hI hst h
    unfold searchInner at h
    rw [Res.bind_eq_ok] at h
    obtain ⟨init, h1, h⟩ := h
    rw [Res.bind_eq_ok] at h
    obtain ⟨⟨out, st1, r1⟩, h2, h⟩ := h
    obtain ⟨L, rfl, hz, hS⟩ := hx.sound _ _ _ _ _ _ (hI P (by simp) _ h1) hst h2
    dsimp only at h
    obtain ⟨Ls, h3, h4, h5⟩ := ih (fun P h => hI P (by simp [h])) hS h
    exact ⟨L :: Ls, .cons ⟨init, h1, hz⟩ h3, h4, h5⟩

theorem searchInner_complete (hx : ExactSearch ls maxP I S Z) {ps : List (List (List (Fin n)))}
    {Ls : List (Labels n)} (hL : List.Forall₂ (FromPart Z) ps Ls) :
    ∀ (best : Option (Labels n × ℚ)) {st : ς},
    (∀ P ∈ ps, ∀ L, labelsOfPartition P = .ok L → I L) → S st →
    ∃ st', S st' ∧ ∀ r', ∃ r, searchInner ls obj attr maxP ps best st r =
      .ok (Ls.foldl (pickBest obj attr) best, st', r') := by
  induction hL with
  | nil => intro best st _ hst; exact ⟨st, hst, fun r' => ⟨r', rfl⟩⟩
  | @cons P L ps Ls h1 _ ih =>
    intro best st hI hst
    obtain ⟨init, h1, hz⟩ := h1
    obtain ⟨st1, hS1, h2⟩ := hx.complete init st L (hI P (by simp) _ h1) hst hz
    obtain ⟨st', hS', h3⟩ := ih (pickBest obj attr best L) (fun P h => hI P (by simp [h])) hS1
    refine ⟨st', hS', fun r' => ?_⟩
    obtain ⟨r1, h3⟩ := h3 r'
    obtain ⟨r, h2⟩ := h2 r1
    refine ⟨r, ?_⟩
    unfold searchInner
    rw [h1, Res.bind_ok, h2, Res.bind_ok]
    exact h3

variable (spat : Fin n → Fin q → ℚ) (thr : Fin q → ℚ)

theorem searchOuter_sound (hx : ExactSearch ls maxP I S Z) (hwrap : ∀ st, S0 st → S (ls.wrap spat thr st))
    (hS : ∀ st, S st → S0 st) {feasible : List (List (List (Fin n)))}
    (hI : ∀ P ∈ feasible, ∀ L, labelsOfPartition P = .ok L → I L) :
    ∀ {rounds : List (List (List (Fin n)))} {best : Option (Labels n × ℚ)} {st : ς} {r : Rng}
    {best' : Option (Labels n × ℚ)} {st' : ς} {r' : Rng}, S0 st →
    searchOuter ls obj attr maxP spat thr feasible rounds best st r = .ok (best', st', r') →
    ∃ Ls, List.Forall₂ (FromPart Z) (List.replicate rounds.length feasible).flatten Ls ∧
      best' = Ls.foldl (pickBest obj attr) best ∧ S0 st' := by
  intro rounds
  induction rounds with
  | nil =>
    intro best st r best' st' r' hst h
    unfold searchOuter at h
    cases h
    exact ⟨[], .nil, rfl, hst⟩
  | cons x rounds ih =>
    intro best st r best' st' r' hst h
    unfold searchOuter at h
    rw [Res.bind_eq_ok] at h
    obtain ⟨⟨b1, st1, r1⟩, h1, h2⟩ := h
    obtain ⟨Ls, h3, rfl, h5⟩ := searchInner_sound hx hI (hwrap _ hst) h1
    obtain ⟨Ls', h6, rfl, h8⟩ := ih (hS _ h5) h2
    refine ⟨Ls ++ Ls', ?_, by rw [List.foldl_append], h8⟩
    rw [List.length_cons, List.replicate_succ, List.flatten_cons]
    exact List.rel_append h3 h6

theorem forall₂_split {α β : Type} {R : α → β → Prop} {ys : List α} : ∀ {xs : List α} {zs : List β},
    List.Forall₂ R (xs ++ ys) zs →
    ∃ z1 z2, zs = z1 ++ z2 ∧ List.Forall₂ R xs z1 ∧ List.Forall₂ R ys z2 := by
  intro xs
  induction xs with
  | nil => intro zs h; exact ⟨[], zs, rfl, .nil, h⟩
  | cons x xs ih =>
    intro zs h
    rw [List.cons_append] at h
    cases h with
    | cons h1 h2 =>
      obtain ⟨z1, z2, rfl, h3, h4⟩ := ih h2
      exact ⟨_ :: z1, z2, rfl, .cons h1 h3, h4⟩

theorem searchOuter_complete (hx : ExactSearch ls maxP I S Z) (hwrap : ∀ st, S0 st → S (ls.wrap spat thr st))
    (hS : ∀ st, S st → S0 st) {feasible : List (List (List (Fin n)))}
    (hI : ∀ P ∈ feasible, ∀ L, labelsOfPartition P = .ok L → I L) :
    ∀ {rounds : List (List (List (Fin n)))} {Ls : List (Labels n)},
    List.Forall₂ (FromPart Z) (List.replicate rounds.length feasible).flatten Ls →
    ∀ (best : Option (Labels n × ℚ)) {st : ς}, S0 st →
    ∃ st', S0 st' ∧ ∀ r', ∃ r, searchOuter ls obj attr maxP spat thr feasible rounds best st r =
      .ok (Ls.foldl (pickBest obj attr) best, st', r') := by
  intro rounds
  induction rounds with
  | nil =>
    intro Ls h best st hst
    simp at h
    subst h
    exact ⟨st, hst, fun r' => ⟨r', rfl⟩⟩
  | cons x rounds ih =>
    intro Ls h best st hst
    rw [List.length_cons, List.replicate_succ, List.flatten_cons] at h
    obtain ⟨z1, z2, rfl, h1, h2⟩ := forall₂_split h
    obtain ⟨st1, hS1, h3⟩ := searchInner_complete (obj := obj) (attr := attr) hx h1 best hI (hwrap _ hst)
    obtain ⟨st', hS', h4⟩ := ih h2 (z1.foldl (pickBest obj attr) best) (hS _ hS1)
    refine ⟨st', hS', fun r' => ?_⟩
    obtain ⟨r1, h4⟩ := h4 r'
    obtain ⟨r, h3⟩ := h3 r1
    refine ⟨r, ?_⟩
    unfold searchOuter
    rw [h3, Res.bind_ok]
    dsimp only
    rw [h4, ← List.foldl_append]

theorem pickBest_some {Ls : List (Labels n)} : ∀ {L0 L : Labels n} {v : ℚ},
    Ls.foldl (pickBest obj attr) (some (L0, obj.call L0 attr)) = some (L, v) ↔
      v = obj.call L attr ∧ FirstBest (fun l => obj.call l attr) (L0 :: Ls) L := by
  induction Ls with
  | nil =>
    intro L0 L v
    rw [List.foldl_nil]
    constructor
    · intro h
      cases h
      exact ⟨rfl, [], [], rfl, by simp, by simp⟩
    · rintro ⟨rfl, b, a, h, _, _⟩
      cases b with
      | nil => cases h; rfl
      | cons x b => rw [List.cons_append] at h; simp at h
  | cons M Ls ih =>
    intro L0 L v
    rw [List.foldl_cons]
    have : pickBest obj attr (some (L0, obj.call L0 attr)) M =
        if obj.call M attr < obj.call L0 attr then some (M, obj.call M attr)
        else some (L0, obj.call L0 attr) := rfl
    rw [this]
    split_ifs with hlt
    · rw [ih]
      refine and_congr Iff.rfl ⟨?_, ?_⟩
      · rintro ⟨b, a, h, h1, h2⟩
        refine ⟨L0 :: b, a, by rw [h]; rfl, ?_, h2⟩
        intro y hy
        rcases List.mem_cons.1 hy with rfl | hy
        · cases b with
          | nil => cases h; exact hlt
          | cons x b => cases h; exact (h1 M (by simp)).trans hlt
        · exact h1 y hy
      · rintro ⟨b, a, h, h1, h2⟩
        cases b with
        | nil =>
          cases h
          exact absurd (h2 M (by simp)) (not_le.2 hlt)
        | cons x b =>
          rw [List.cons_append] at h
          injection h with h3 h4
          exact ⟨b, a, h4, fun y hy => h1 y (by simp [hy]), h2⟩
    · rw [ih]
      push Not at hlt
      refine and_congr Iff.rfl ⟨?_, ?_⟩
      · rintro ⟨b, a, h, h1, h2⟩
        cases b with
        | nil =>
          cases h
          exact ⟨[], M :: Ls, rfl, by simp, fun y hy => by
            rcases List.mem_cons.1 hy with rfl | hy
            · exact hlt
            · exact h2 y hy⟩
        | cons x b =>
          rw [List.cons_append] at h
          injection h with h3 h4
          subst h3
          refine ⟨L0 :: M :: b, a, by rw [h4]; rfl, fun y hy => ?_, h2⟩
          rcases List.mem_cons.1 hy with rfl | hy
          · exact h1 _ (by simp)
          rcases List.mem_cons.1 hy with rfl | hy
          · exact (h1 L0 (by simp)).trans_le hlt
          · exact h1 _ (by simp [hy])
      · rintro ⟨b, a, h, h1, h2⟩
        cases b with
        | nil =>
          cases h
          exact ⟨[], Ls, rfl, by simp, fun y hy => h2 y (by simp [hy])⟩
        | cons x b =>
          rw [List.cons_append] at h
          injection h with h3 h4
          subst h3
          cases b with
          | nil =>
            cases h4
            exact absurd (h1 L0 (by simp)) (not_lt.2 hlt)
          | cons y b =>
            cases h4
            exact ⟨L0 :: b, a, rfl, fun y hy => by
              rcases List.mem_cons.1 hy with rfl | hy
              · exact h1 _ (by simp)
              · exact h1 _ (by simp [hy]), h2⟩

theorem pickBest_none {Ls : List (Labels n)} {L : Labels n} {v : ℚ} :
    Ls.foldl (pickBest obj attr) none = some (L, v) ↔
      v = obj.call L attr ∧ FirstBest (fun l => obj.call l attr) Ls L := by
  cases Ls with
  | nil =>
    constructor
    · intro h; cases h
    · rintro ⟨_, b, a, h, _⟩; simp at h
  | cons M Ls => exact pickBest_some

end Search

section Whole
variable {n q : Nat} {ρ : Type} {metric : ρ → ρ → ℚ} {adj : Adj n} {attr : Fin n → ρ}
  {spat : Fin n → Fin q → ℚ} {thr : Fin q → ℚ}

theorem Absorbed.length {V : Type} [DecidableEq V] {adj : V → V → Bool} {d : V → V → ℚ} {P P' : List (Finset V)}
    {E : Finset V} (h : Absorbed adj d P E P') : P'.length = P.length := by
  induction h with
  | done => rfl
  | join _ _ _ _ _ ih => rw [ih, List.length_modify]

/-- A start of the local search. -/
def StartOk (adj : Adj n) (p : Nat) (init : Labels n) : Prop :=
  AllContiguous adj init ∧ numRegions init = p ∧ ∀ v, init v ≠ -1

theorem startOk_of {P : List (List (Fin n))} (h : Partial adj (fun _ => True) P []) {L : Labels n}
    (hL : labelsOfPartition P = .ok L) : StartOk adj P.length L := by
  obtain ⟨L', h1, h2, h3, h4, _⟩ := labels_of_complete (q := 0) (spat := fun _ j => j.elim0)
    (thr := fun j => j.elim0) h (fun _ _ j => j.elim0)
  rw [hL] at h1
  cases h1
  exact ⟨h2, h4, h3⟩

theorem labelsOfPartition_iff {P : List (List (Fin n))} (h : Partial adj (fun _ => True) P []) (L : Labels n) :
    labelsOfPartition P = .ok L ↔ Numbered (P.map List.toFinset) L := by
  have hperm : P.flatten.Perm (List.finRange n) := by simpa using h.perm
  have hnd := hperm.nodup_iff.2 (List.nodup_finRange n)
  obtain ⟨L', h1, h2⟩ := labelsOfPartition_spec hperm
  have hnum : Numbered (P.map List.toFinset) L' := by
    intro v
    obtain ⟨i, hi, h3, h4⟩ := h2 v
    exact ⟨i, by simpa using hi, h3, by simpa using (h4 v).1 rfl⟩
  rw [h1]
  constructor
  · intro h; cases h; exact hnum
  · intro hL
    have : L' = L := by
      funext v
      obtain ⟨i, hi, h3, h4⟩ := hnum v
      obtain ⟨j, hj, h5, h6⟩ := hL v
      have ei := (findSublistIdx_iff hnd v i).2 ⟨by simpa using hi, by simpa using h4⟩
      have ej := (findSublistIdx_iff hnd v j).2 ⟨by simpa using hj, by simpa using h6⟩
      rw [ei] at ej
      cases ej
      rw [h3, h5]
    rw [this]

theorem FirstBest.congr {X : Type} {f g : X → ℚ} (h : ∀ x y, f x < f y ↔ g x < g y) (xs : List X) (x : X) :
    FirstBest f xs x ↔ FirstBest g xs x := by
  unfold FirstBest
  have h' : ∀ x y, f x ≤ f y ↔ g x ≤ g y := fun x y => by rw [← not_lt, h, not_lt]
  simp only [h, h']

theorem forall₂_fromPart {Z : Labels n → Labels n → Prop} {ps : List (List (List (Fin n)))}
    (hp : ∀ P ∈ ps, Partial adj (fun _ => True) P []) (Ls : List (Labels n)) :
    List.Forall₂ (FromPart Z) ps Ls ↔
      List.Forall₂ (fun P L => ∃ init, Numbered P init ∧ Z init L) (ps.map (List.map List.toFinset)) Ls := by
  rw [List.forall₂_map_left_iff]
  constructor
  · intro h
    refine List.Forall₂.imp (R := fun P L => P ∈ ps ∧ FromPart Z P L) ?_
      ((List.forall₂_and_left _ _).2 ⟨fun P h => h, h⟩)
    rintro P L ⟨hP, init, h1, h2⟩
    exact ⟨init, (labelsOfPartition_iff (hp P hP) init).1 h1, h2⟩
  · intro h
    refine List.Forall₂.imp (R := fun P L => P ∈ ps ∧
      ∃ init, Numbered (P.map List.toFinset) init ∧ Z init L) ?_
      ((List.forall₂_and_left _ _).2 ⟨fun P h => h, h⟩)
    rintro P L ⟨hP, init, h1, h2⟩
    exact ⟨init, (labelsOfPartition_iff (hp P hP) init).2 h1, h2⟩

theorem absorbed_parts {kept : List (List (List (Fin n)) × List (Fin n))} {ps : List (List (List (Fin n)))} {p : Nat}
    (h : List.Forall₂ (fun pe P => Absorbed adj (dist metric attr) (sets pe).1 (sets pe).2 (P.map List.toFinset) ∧
      Partial adj (fun _ => True) P []) kept ps) (hp : ∀ pe ∈ kept, pe.1.length = p) :
    ∀ P ∈ ps, Partial adj (fun _ => True) P [] ∧ P.length = p := by
  induction h with
  | nil => intro P hP; cases hP
  | cons h _ ih =>
    intro P hP
    rcases List.mem_cons.1 hP with rfl | hP
    · have h5 := Absorbed.length h.1
      refine ⟨h.2, ?_⟩
      rw [← hp _ (List.mem_cons_self ..)]
      simpa [sets] using h5
    · exact ih (fun pe hpe => hp pe (by simp [hpe])) P hP

variable {ς : Type} {ls : LocalSearch ς n q} {obj : Objective ρ} {S S0 : ς → Prop} {Z : Labels n → Labels n → Prop}

/-- The results of the max-p heuristic with a local search whose results are known. -/
theorem maxpFit_exact (hs : Symmetric adj) (hloop : ∀ v, adj v v = false)
    (hx : ∀ p, ExactSearch ls p (StartOk adj p) S Z) (hwrap : ∀ st, S0 st → S (ls.wrap spat thr st))
    (hS : ∀ st, S st → S0 st)
    (hv : ∀ l l', obj.call l attr < obj.call l' attr ↔
      dissimilarity (dist metric attr) l < dissimilarity (dist metric attr) l')
    {maxIt : Nat} (hit : 0 < maxIt) {st : ς} (hst : S0 st) (p : Nat) (L : Labels n) :
    (∃ r st' r', maxpFit ls metric obj adj attr spat thr maxIt st r = .ok (p, some L, st', r')) ↔
      MaxpResult adj (dist metric attr) spat thr maxIt Z p L := by
  have hcon : ∀ r, construct metric adj attr spat thr maxIt 0 [] r =
      (growRuns metric adj attr spat thr maxIt r >>= fun (runs, r') =>
        .ok (mostRegions runs, runs.filter (fun pe => decide (pe.1.length = mostRegions runs)), r')) :=
    fun r => construct_spec metric adj attr spat thr maxIt [] r
  have hfilter : ∀ (runs : List (List (List (Fin n)) × List (Fin n))) (p : Nat),
      (runs.filter fun pe => decide (pe.1.length = p)).map sets =
        (runs.map sets).filter fun run => decide (run.1.length = p) := by
    intro runs p
    rw [List.filter_map]
    congr 1
    apply List.filter_congr
    intro x _
    simp [sets]
  constructor
  · rintro ⟨r, st', r', h⟩
    unfold maxpFit at h
    rw [hcon, Res.bind_eq_ok] at h
    obtain ⟨⟨maxP, kept, r1⟩, h1, h⟩ := h
    rw [Res.bind_eq_ok] at h1
    obtain ⟨⟨runs, r2⟩, h1, h1'⟩ := h1
    cases h1'
    dsimp only at h
    rw [Res.bind_eq_ok] at h
    obtain ⟨⟨ps, r3⟩, h2, h⟩ := h
    dsimp only at h
    rw [Res.bind_eq_ok] at h
    obtain ⟨⟨best, st3, r4⟩, h3, h⟩ := h
    injection h with h
    injection h with hp h
    injection h with hb h
    subst hp
    obtain ⟨hlen, hruns⟩ := growRuns_sound hs hloop maxIt h1
    have hne : runs ≠ [] := by rintro rfl; simp at hlen; omega
    have hass := assignAll_sound hs (fun pe hpe => (hruns pe (List.mem_filter.1 hpe).1).2) h2
    have hpart : ∀ P ∈ ps, Partial adj (fun _ => True) P [] ∧ P.length = mostRegions runs := absorbed_parts hass (fun pe hpe => by simpa using (List.mem_filter.1 hpe).2)
    obtain ⟨Ls, h4, h5, _⟩ := searchOuter_sound spat thr (hx (mostRegions runs)) hwrap hS
      (fun P hP L' hL' => by
        have := startOk_of (hpart P hP).1 hL'
        rwa [(hpart P hP).2] at this) hst h3
    obtain ⟨⟨L', v⟩, hb1, hb2⟩ : ∃ b, best = some b ∧ b.1 = L := by
      cases best with
      | none => cases hb
      | some b => exact ⟨b, rfl, by simpa using hb⟩
    dsimp only at hb2
    subst hb2
    rw [hb1] at h5
    have hbest := (pickBest_none.1 h5.symm).2
    refine ⟨runs.map sets, by simpa using hlen, ?_, ?_, ?_, ps.map (List.map List.toFinset), ?_, Ls, ?_, ?_⟩
    · intro run hrun
      obtain ⟨pe, hpe, rfl⟩ := List.mem_map.1 hrun
      exact (hruns pe hpe).1
    · intro run hrun
      obtain ⟨pe, hpe, rfl⟩ := List.mem_map.1 hrun
      simpa [sets] using le_mostRegions hpe
    · obtain ⟨pe, hpe, h6⟩ := exists_mostRegions hne
      exact ⟨sets pe, List.mem_map.2 ⟨pe, hpe, rfl⟩, by simpa [sets] using h6⟩
    · rw [← hfilter, List.forall₂_map_left_iff, List.forall₂_map_right_iff]
      exact hass.imp fun _ _ h => h.1
    · rw [forall₂_fromPart (adj := adj)] at h4
      · rw [List.length_map, ← List.map_replicate, ← List.map_flatten]
        exact h4
      · intro P hP
        obtain ⟨l, hl, hP⟩ := List.mem_flatten.1 hP
        rw [(List.mem_replicate.1 hl).2] at hP
        exact (hpart P hP).1
    · exact (FirstBest.congr hv _ _).1 hbest
  · rintro ⟨runs', hlen, hcons, hle, hex, parts, habs, Ls, hLs, hbest⟩
    obtain ⟨runs, rfl, hrun⟩ := growRuns_complete hs hloop hcons
    have hlen' : runs.length = maxIt := by simpa using hlen
    rw [hlen] at hrun
    have hgood : ∀ pe ∈ runs, Partial adj (fun _ => True) pe.1 pe.2 := by
      obtain ⟨r, hr⟩ := hrun fun _ => 0
      exact fun pe hpe => ((growRuns_sound hs hloop maxIt hr).2 pe hpe).2
    have hp : p = mostRegions runs := by
      apply le_antisymm
      · obtain ⟨run, h1, h2⟩ := hex
        obtain ⟨pe, h3, rfl⟩ := List.mem_map.1 h1
        rw [← h2]
        simpa [sets] using le_mostRegions h3
      · have hne : runs ≠ [] := by rintro rfl; simp at hlen'; omega
        obtain ⟨pe, h1, h2⟩ := exists_mostRegions hne
        rw [← h2]
        simpa [sets] using hle (sets pe) (List.mem_map.2 ⟨pe, h1, rfl⟩)
    subst hp
    rw [← hfilter] at habs
    have hkept : ∀ pe ∈ runs.filter (fun pe => decide (pe.1.length = mostRegions runs)),
        Partial adj (fun _ => True) pe.1 pe.2 := fun pe hpe => hgood pe (List.mem_filter.1 hpe).1
    obtain ⟨ps, rfl, hass⟩ := assignAll_complete hs hkept habs
    have hpart : ∀ P ∈ ps, Partial adj (fun _ => True) P [] ∧ P.length = mostRegions runs := by
      obtain ⟨r, hr⟩ := hass fun _ => 0
      exact absorbed_parts (assignAll_sound hs hkept hr)
        (fun pe hpe => by simpa using (List.mem_filter.1 hpe).2)
    rw [List.length_map, ← List.map_replicate, ← List.map_flatten, ← forall₂_fromPart (adj := adj)] at hLs
    swap
    · intro P hP
      obtain ⟨l, hl, hP⟩ := List.mem_flatten.1 hP
      rw [(List.mem_replicate.1 hl).2] at hP
      exact (hpart P hP).1
    obtain ⟨st', _, hout⟩ := searchOuter_complete (obj := obj) (attr := attr) spat thr (hx (mostRegions runs))
      hwrap hS (fun P hP L' hL' => by
        have := startOk_of (hpart P hP).1 hL'
        rwa [(hpart P hP).2] at this) hLs none hst
    have hb := pickBest_none.2 ⟨rfl, (FirstBest.congr hv _ _).2 hbest⟩
    rw [hb] at hout
    obtain ⟨r3, hout⟩ := hout fun _ => 0
    obtain ⟨r2, hass⟩ := hass r3
    obtain ⟨r1, hrun⟩ := hrun r2
    refine ⟨r1, st', fun _ => 0, ?_⟩
    unfold maxpFit
    rw [hcon, hrun, Res.bind_ok]
    dsimp only
    rw [Res.bind_ok]
    dsimp only
    rw [hass, Res.bind_ok]
    dsimp only
    rw [hout, Res.bind_ok]
    rfl

end Whole

end Region
