import Verif.SpecAnneal
import Verif.Lemmas.AzpExactFit
import Verif.Lemmas.OneIsland
import Verif.Lemmas.AzpSa
/-
Simulated annealing with all its possible results.
-/
namespace Region

open Spec Res

theorem mayTake_iff {expf : ℚ → ℚ} {t d : ℚ} : MayTake expf t d ↔ 0 < Strat.acceptProb expf d t := by
  unfold MayTake Strat.acceptProb
  split_ifs with h <;> simp [h]

theorem mayLeave_iff {expf : ℚ → ℚ} {t d : ℚ} :
    MayLeave expf t d ↔ Strat.acceptProb expf d t ≤ 1 - 1 / 2 ^ 53 := by
  unfold MayLeave Strat.acceptProb
  split_ifs with h
  · simp only [h, true_or, true_iff]
    norm_num
  · simp [h]

theorem randomLt_true {p : ℚ} {r : Rng} (h : (Strat.randomLt p r).1 = true) : 0 < p := by
  unfold Strat.randomLt at h
  simp only [decide_eq_true_eq] at h
  refine lt_of_le_of_lt ?_ h
  exact div_nonneg (Nat.cast_nonneg _) (by norm_num)

theorem randomLt_false {p : ℚ} {r : Rng} (h : (Strat.randomLt p r).1 = false) : p ≤ 1 - 1 / 2 ^ 53 := by
  unfold Strat.randomLt at h
  simp only [decide_eq_false_iff_not, not_lt] at h
  refine h.trans ?_
  have h1 : r 0 % 2 ^ 53 + 1 ≤ 2 ^ 53 := Nat.mod_lt _ (by norm_num)
  have h2 : ((r 0 % 2 ^ 53 : Nat) : ℚ) + 1 ≤ 2 ^ 53 := by exact_mod_cast h1
  rw [div_le_iff₀ (by norm_num)]
  have : (1 - 1 / 2 ^ 53 : ℚ) * 2 ^ 53 = 2 ^ 53 - 1 := by norm_num
  rw [this]
  linarith

theorem randomLt_zero {p : ℚ} (h : 0 < p) (r : Rng) :
    Strat.randomLt p (Rng.cons 0 r) = (true, r) := by
  unfold Strat.randomLt
  rw [Rng.cons_zero, Rng.cons_next]
  simpa using h

theorem randomLt_max {p : ℚ} (h : p ≤ 1 - 1 / 2 ^ 53) (r : Rng) :
    Strat.randomLt p (Rng.cons (2 ^ 53 - 1) r) = (false, r) := by
  unfold Strat.randomLt
  rw [Rng.cons_zero, Rng.cons_next]
  simp only [Prod.mk.injEq, decide_eq_false_iff_not, not_lt, and_true]
  refine h.trans (le_of_eq ?_)
  norm_num

section Component
variable {n q k : Nat} {ρ : Type} {expf : ℚ → ℚ} {idx : Fin k → Fin n} {attr : Fin k → ρ}
  {obj : Objective ρ} {adj : Adj k} {t : ℚ} {term : Nat}

variable (n q attr obj t term) in
/-- The strategy object belonging to a state of the annealing. -/
def SaAt (x : Annealing (Fin k)) : Strat n q :=
  .sa t term x.worse (obj.call x.labels attr) (decide (term ≤ x.worse)) x.moved

/-- The state of a run of AZP belonging to a state of the annealing. -/
def HotHolds (n q : Nat) (attr : Fin k → ρ) (obj : Objective ρ) (adj : Adj k) (t : ℚ) (term : Nat)
    (s : AzpState (Strat n q) k) (x : Annealing (Fin k)) : Prop :=
  Holds adj (fun _ st => st = SaAt n q attr obj t term x) s x.labels

theorem HotHolds.draw {s : AzpState (Strat n q) k} {x : Annealing (Fin k)}
    (h : HotHolds n q attr obj adj t term s x) (r : Rng) :
    HotHolds n q attr obj adj t term { s with rng := r } x := Holds.draw h r

local notation "H" => HotHolds n q attr obj adj t term
local notation "V" => (fun L : Labels k => obj.call L attr)
local notation "HG" => HotGrown adj V (MayTake expf t) (MayLeave expf t)
local notation "HP" => HotPassed adj V (MayTake expf t) (MayLeave expf t)
local notation "HR" => HotRounds adj V (MayTake expf t) (MayLeave expf t)
local notation "OPS" => Strat.ops (n := n) (q := q) expf idx attr obj

/-- The state after taking area `a`. -/
def takenBetter (x : Annealing (Fin k)) (a : Fin k) (r : Int) : Annealing (Fin k) :=
  ⟨moved x.labels a r, x.worse, true⟩
def takenWorse (x : Annealing (Fin k)) (a : Fin k) (r : Int) : Annealing (Fin k) :=
  ⟨moved x.labels a r, x.worse + 1, true⟩

section
variable (he : obj.Exact) (ht : obj.Total)
include he ht

theorem sa_call_better {x : Annealing (Fin k)} {a : Fin k} {r : Int} (hm : Admissible adj x.labels a r)
    (hv : V (moved x.labels a r) ≤ V x.labels) (rng : Rng) :
    (OPS).call (SaAt n q attr obj t term x) a r x.labels rng =
      .ok (true, SaAt n q attr obj t term (takenBetter x a r), rng) := by
  obtain ⟨_, ⟨u, hu, _⟩, hb, _⟩ := hm
  obtain ⟨d, hd⟩ := ht a r x.labels attr ⟨u, hu⟩ hb
  have := he a r x.labels attr d hd
  change Strat.call expf idx attr obj _ a r x.labels rng = _
  unfold Strat.call SaAt takenBetter
  dsimp only at hv ⊢
  rw [hd]
  dsimp only
  rw [if_pos (by linarith), this]

theorem sa_call_worse {x : Annealing (Fin k)} {a : Fin k} {r : Int} (hm : Admissible adj x.labels a r)
    (hv : V x.labels < V (moved x.labels a r)) (rng : Rng) :
    (OPS).call (SaAt n q attr obj t term x) a r x.labels rng =
      match Strat.randomLt (Strat.acceptProb expf (V (moved x.labels a r) - V x.labels) t) rng with
      | (true, r') => .ok (true, SaAt n q attr obj t term (takenWorse x a r), r')
      | (false, r') => .ok (false, SaAt n q attr obj t term x, r') := by
  obtain ⟨_, ⟨u, hu, _⟩, hb, _⟩ := hm
  obtain ⟨d, hd⟩ := ht a r x.labels attr ⟨u, hu⟩ hb
  have := he a r x.labels attr d hd
  change Strat.call expf idx attr obj _ a r x.labels rng = _
  unfold Strat.call SaAt takenWorse
  dsimp only at hv ⊢
  rw [hd]
  dsimp only
  rw [if_neg (by intro h; linarith), this, add_sub_cancel_left]
  generalize Strat.randomLt _ rng = z
  obtain ⟨b, r'⟩ := z
  cases b with
  | false => rfl
  | true =>
    dsimp only
    congr 4
    simp only [Bool.or_eq_decide, decide_eq_true_eq, decide_eq_decide, ge_iff_le]
    omega

/-- What a call of the strategy can answer. -/
theorem sa_call_sound {x : Annealing (Fin k)} {a : Fin k} {r : Int} (hm : Admissible adj x.labels a r)
    (rng : Rng) : ∃ b y rng', (OPS).call (SaAt n q attr obj t term x) a r x.labels rng =
        .ok (b, SaAt n q attr obj t term y, rng') ∧
      (b = false → y = x ∧ V x.labels < V (moved x.labels a r) ∧
        MayLeave expf t (V (moved x.labels a r) - V x.labels)) ∧
      (b = true → y.labels = moved x.labels a r ∧ ∀ z, HG r y z → HG r x z) := by
  rcases le_or_gt (V (moved x.labels a r)) (V x.labels) with h | h
  · exact ⟨true, _, rng, sa_call_better he ht hm h rng, (fun h => by cases h),
      fun _ => ⟨rfl, fun z hz => .better hm h hz⟩⟩
  · rw [sa_call_worse he ht hm h rng]
    cases hr : Strat.randomLt (Strat.acceptProb expf (V (moved x.labels a r) - V x.labels) t) rng with
    | mk b r' =>
      cases b with
      | true =>
        exact ⟨true, _, r', rfl, (fun h => by cases h), fun _ => ⟨rfl, fun z hz => .worse hm h
          (mayTake_iff.2 (randomLt_true (r := rng) (by rw [hr]))) hz⟩⟩
      | false =>
        exact ⟨false, x, r', rfl, (fun _ => ⟨rfl, h, mayLeave_iff.2 (randomLt_false (r := rng) (by rw [hr]))⟩),
          fun h => by cases h⟩

theorem hot_try_sound (hs : Spec.Symmetric adj) {r : Int} {x : Annealing (Fin k)} :
    ∀ (fuel : Nat) (cands : List (Fin k)) (s : AzpState (Strat n q) k), H s x →
    (∀ c ∈ cands, Admissible adj x.labels c r) →
    ∀ b s', tryCandidates OPS adj r fuel cands s = .ok (b, s') →
      (b = false → H s' x ∧ ∀ c ∈ cands, V x.labels < V (moved x.labels c r) ∧
        MayLeave expf t (V (moved x.labels c r) - V x.labels)) ∧
      (b = true → ∃ a y, Admissible adj x.labels a r ∧ y.labels = moved x.labels a r ∧ H s' y ∧
        ∀ z, HG r y z → HG r x z) := by
  intro fuel
  induction fuel with
  | zero =>
    intro cands s h hc b s' hrun
    cases cands with
    | nil =>
      unfold tryCandidates at hrun; cases hrun
      exact ⟨fun _ => ⟨h, by simp⟩, fun h => by cases h⟩
    | cons => unfold tryCandidates at hrun; cases hrun
  | succ fuel ih =>
    intro cands s h hc b s' hrun
    cases cands with
    | nil =>
      unfold tryCandidates at hrun; cases hrun
      exact ⟨fun _ => ⟨h, by simp⟩, fun h => by cases h⟩
    | cons c cs =>
      unfold tryCandidates at hrun
      obtain ⟨pos, hpos, hpop⟩ := popRandomlyFrom_ne_nil (lst := c :: cs) (by simp) s.rng
      rw [hpop, Res.bind_ok] at hrun
      dsimp only at hrun
      generalize hca : (c :: cs)[pos] = cand at hrun
      have hcm : Admissible adj x.labels cand r := hc _ (hca ▸ List.getElem_mem hpos)
      obtain ⟨b1, y, rng', h1, h2, h3⟩ := sa_call_sound (expf := expf) (idx := idx) (q := q) (t := t) (term := term) he ht hcm s.rng.next
      rw [h.strat, h.labels, h1, Res.bind_ok] at hrun
      dsimp only at hrun
      cases b1 with
      | true =>
        rw [if_pos rfl, Res.bind_eq_ok] at hrun
        obtain ⟨s1, h4, h5⟩ := hrun
        cases h5
        obtain ⟨s2, g1, g2, g3, g4, g5⟩ := applyMove_spec
          (s := { s with labels := x.labels, strat := SaAt n q attr obj t term y, rng := rng' }) hs
          (by have := h.nbrs; rw [h.labels] at this; exact this)
          (by have := h.contiguous; rw [h.labels] at this; exact this) hcm
        rw [g1] at h4
        cases h4
        obtain ⟨e1, e2⟩ := h3 rfl
        refine ⟨(fun h => by cases h), fun _ => ⟨cand, y, hcm, e1, ⟨?_, g3, ?_, g4⟩, e2⟩⟩
        · rw [e1]; exact g2
        · rw [g2]
          exact moved_contiguous (by have := h.contiguous; rw [h.labels] at this; exact this) hcm
      | false =>
        obtain ⟨e1, e2⟩ := h2 rfl
        subst e1
        rw [if_neg (by simp)] at hrun
        obtain ⟨i1, i2⟩ := ih _ { s with labels := y.labels, strat := SaAt n q attr obj t term y, rng := rng' }
          ⟨rfl, by have := h.nbrs; rw [h.labels] at this; exact this,
            by have := h.contiguous; rw [h.labels] at this; exact this, rfl⟩
          (fun x hx => hc x (List.mem_of_mem_eraseIdx hx)) b s' hrun
        refine ⟨fun hb => ⟨(i1 hb).1, ?_⟩, i2⟩
        intro x hx
        obtain ⟨j, hj, rfl⟩ := List.mem_iff_getElem.1 hx
        by_cases hjp : j = pos
        · subst hjp; rw [hca]; exact e2
        · exact (i1 hb).2 _ (List.mem_eraseIdx_iff_getElem.2 ⟨j, hj, hjp, rfl⟩)

/-- Some tape leads from `s` to the state `x`, and leaves any tape one likes. -/
def HotLeads {α : Type} (run : AzpState (Strat n q) k → Res α) (out : AzpState (Strat n q) k → α)
    (s : AzpState (Strat n q) k) (P : AzpState (Strat n q) k → Prop) : Prop :=
  ∃ s', P s' ∧ ∀ r', ∃ r0, run { s with rng := r0 } = .ok (out { s' with rng := r' })

theorem hot_try_refused {r : Int} {x : Annealing (Fin k)} : ∀ (fuel : Nat) (cands : List (Fin k))
    (s : AzpState (Strat n q) k), H s x → (∀ c ∈ cands, Admissible adj x.labels c r) →
    (∀ c ∈ cands, V x.labels < V (moved x.labels c r) ∧
      MayLeave expf t (V (moved x.labels c r) - V x.labels)) → cands.length ≤ fuel →
    HotLeads (tryCandidates OPS adj r fuel cands) (fun s => (false, s)) s fun s' => H s' x := by
  intro fuel
  induction fuel with
  | zero =>
    intro cands s h hc hno hl
    have : cands = [] := by simpa using hl
    subst this
    exact ⟨s, h, fun r' => ⟨r', rfl⟩⟩
  | succ fuel ih =>
    intro cands s h hc hno hl
    cases cands with
    | nil => exact ⟨s, h, fun r' => ⟨r', rfl⟩⟩
    | cons c cs =>
      obtain ⟨s', g1, g2⟩ := ih cs s h
        (fun x hx => hc x (by simp [hx])) (fun x hx => hno x (by simp [hx])) (by simpa using hl)
      refine ⟨s', g1, fun r' => ?_⟩
      obtain ⟨r0, g3⟩ := g2 r'
      refine ⟨Rng.cons 0 (Rng.cons (2 ^ 53 - 1) r0), ?_⟩
      have hcall := sa_call_worse (n := n) (q := q) (t := t) (term := term) (expf := expf) (idx := idx) he ht
        (hc c (by simp)) (hno c (by simp)).1 (Rng.cons (2 ^ 53 - 1) r0)
      rw [randomLt_max (mayLeave_iff.1 (hno c (by simp)).2)] at hcall
      unfold tryCandidates
      dsimp only
      rw [popRandomlyFrom_any (c :: cs) 0 (by simp), Res.bind_ok]
      simp only [List.getElem_cons_zero, List.eraseIdx_cons_zero]
      rw [h.labels, h.strat, hcall, Res.bind_ok]
      have e : s = { s with labels := x.labels, strat := SaAt n q attr obj t term x } := by
        have h1 := h.labels; have h2 := h.strat
        cases s; dsimp only at h1 h2 ⊢; rw [h1, h2]
      rw [e] at g3
      simpa using g3

omit he ht in
theorem hot_try_accepts (hs : Spec.Symmetric adj) {r : Int} {x y : Annealing (Fin k)} {fuel : Nat}
    {cands : List (Fin k)} {s : AzpState (Strat n q) k} (h : H s x) {a : Fin k} (ha : a ∈ cands)
    (hc : Admissible adj x.labels a r) (hy : y.labels = moved x.labels a r)
    (hcall : ∀ r', ∃ r0, (OPS).call (SaAt n q attr obj t term x) a r x.labels r0 =
      .ok (true, SaAt n q attr obj t term y, r')) (hl : cands.length ≤ fuel) :
    HotLeads (tryCandidates OPS adj r fuel cands) (fun s => (true, s)) s fun s' => H s' y := by
  have hl' : s.labels = x.labels := h.labels
  obtain ⟨pos, hpos, rfl⟩ := List.mem_iff_getElem.1 ha
  obtain ⟨s2, g1, g2, g3, g4, g5⟩ := applyMove_spec
    (s := { s with strat := SaAt n q attr obj t term y }) hs h.nbrs h.contiguous (hl'.symm ▸ hc)
  dsimp only at g2
  rw [hl'] at g2
  refine ⟨s2, ⟨?_, g3, ?_, g4⟩, fun r' => ?_⟩
  · rw [hy]; exact g2
  · rw [g2]; exact moved_contiguous (hl' ▸ h.contiguous) hc
  · obtain ⟨r0, hcall⟩ := hcall r'
    refine ⟨Rng.cons pos r0, ?_⟩
    obtain ⟨c, cs, rfl⟩ : ∃ c cs, cands = c :: cs := by
      cases cands with
      | nil => cases ha
      | cons c cs => exact ⟨c, cs, rfl⟩
    obtain ⟨fuel, rfl⟩ : ∃ f, fuel = f + 1 := by
      cases fuel with
      | zero => simp at hl
      | succ f => exact ⟨f, rfl⟩
    unfold tryCandidates
    dsimp only
    rw [popRandomlyFrom_any (c :: cs) pos hpos r0, Res.bind_ok]
    dsimp only
    rw [h.strat, hl', hcall, Res.bind_ok]
    simp only [if_true]
    have := applyMove_rng _ _ _ _ r' g1
    dsimp only at this
    rw [hl'] at this
    rw [this]
    rfl

theorem hot_grow_sound (hs : Spec.Symmetric adj) {r : Int} : ∀ (fuel : Nat) (s : AzpState (Strat n q) k)
    (x : Annealing (Fin k)), H s x → (∃ i, x.labels i = r) → ∀ s', growRegion OPS adj r fuel s = .ok s' →
    ∃ y, HG r x y ∧ H s' y := by
  intro fuel
  induction fuel with
  | zero => intro s p h hr s' hrun; cases hrun
  | succ fuel ih =>
    intro s x h hr s' hrun
    unfold growRegion at hrun
    have hl : s.labels = x.labels := h.labels
    obtain ⟨N, hN1, hN2⟩ := h.nbrs r (by rw [hl]; exact hr)
    rw [hl] at hN2
    have : getNbrs s.nbrs r = .ok N := by unfold getNbrs; rw [hN1]
    rw [this, Res.bind_ok] at hrun
    dsimp only at hrun
    rw [Res.bind_eq_ok] at hrun
    obtain ⟨⟨b, s1⟩, h1, hrun⟩ := hrun
    dsimp only at hrun
    rw [hl] at h1
    have hcand : ∀ c, c ∈ candidates adj x.labels N ↔ Admissible adj x.labels c r :=
      fun c => mem_candidates hs hN2
    obtain ⟨t1, t2⟩ := hot_try_sound he ht hs _ _ s h (fun c hc => (hcand c).1 hc) b s1 h1
    cases b with
    | false =>
      rw [if_neg (by simp)] at hrun
      cases hrun
      exact ⟨x, .stop fun a ha => (t1 rfl).2 a ((hcand a).2 ha), (t1 rfl).1⟩
    | true =>
      rw [if_pos rfl] at hrun
      obtain ⟨a, y, ha, hy, h2, hz⟩ := t2 rfl
      obtain ⟨z, i1, i2⟩ := ih s1 y h2 (by rw [hy]; exact (moved_image ha r).2 hr) s' hrun
      exact ⟨z, hz z i1, i2⟩

omit he ht in
theorem hot_grow_step (hs : Spec.Symmetric adj) {r : Int} {x y z : Annealing (Fin k)} {a : Fin k}
    (ha : Admissible adj x.labels a r) (hy : y.labels = moved x.labels a r)
    (hcall : ∀ r', ∃ r0, (OPS).call (SaAt n q attr obj t term x) a r x.labels r0 =
      .ok (true, SaAt n q attr obj t term y, r'))
    (ih : ∀ (fuel : Nat) (s : AzpState (Strat n q) k), H s y → (∃ i, y.labels i = r) →
      k < fuel + regionSize y.labels r →
      HotLeads (growRegion OPS adj r fuel) id s fun s' => H s' z)
    (fuel : Nat) (s : AzpState (Strat n q) k) (h : H s x) (hr : ∃ i, x.labels i = r)
    (hf : k < fuel + regionSize x.labels r) :
    HotLeads (growRegion OPS adj r fuel) id s fun s' => H s' z := by
  have := regionSize_le x.labels r
  obtain ⟨fuel, rfl⟩ : ∃ f, fuel = f + 1 := ⟨fuel - 1, by omega⟩
  have hl : s.labels = x.labels := h.labels
  obtain ⟨N, hN1, hN2⟩ := h.nbrs r (by rw [hl]; exact hr)
  rw [hl] at hN2
  have hcand : ∀ c, c ∈ candidates adj x.labels N ↔ Admissible adj x.labels c r :=
    fun c => mem_candidates hs hN2
  obtain ⟨s1, g1, g2⟩ := hot_try_accepts hs h ((hcand a).2 ha) ha hy hcall le_rfl
  have hsz := regionSize_moved ha.1
  obtain ⟨s', i1, i2⟩ := ih fuel s1 g1 (by rw [hy]; exact (moved_image ha r).2 hr)
    (by rw [hy]; omega)
  refine ⟨s', i1, fun r' => ?_⟩
  obtain ⟨r1, i3⟩ := i2 r'
  obtain ⟨r0, g3⟩ := g2 r1
  refine ⟨r0, ?_⟩
  unfold growRegion
  have : getNbrs s.nbrs r = .ok N := by unfold getNbrs; rw [hN1]
  simp only [this, Res.bind_ok]
  rw [hl] at g3 ⊢
  rw [g3]
  exact i3

theorem hot_grow_complete (hs : Spec.Symmetric adj) {r : Int} {x z : Annealing (Fin k)} (hg : HG r x z) :
    ∀ (fuel : Nat) (s : AzpState (Strat n q) k), H s x → (∃ i, x.labels i = r) →
      k < fuel + regionSize x.labels r →
      HotLeads (growRegion OPS adj r fuel) id s fun s' => H s' z := by
  induction hg with
  | @stop x hno =>
    intro fuel s h hr hf
    have := regionSize_le x.labels r
    obtain ⟨fuel, rfl⟩ : ∃ f, fuel = f + 1 := ⟨fuel - 1, by omega⟩
    have hl : s.labels = x.labels := h.labels
    obtain ⟨N, hN1, hN2⟩ := h.nbrs r (by rw [hl]; exact hr)
    rw [hl] at hN2
    have hcand : ∀ c, c ∈ candidates adj x.labels N ↔ Admissible adj x.labels c r :=
      fun c => mem_candidates hs hN2
    obtain ⟨s', g1, g2⟩ := hot_try_refused he ht (candidates adj x.labels N).length _ s h
      (fun c hc => (hcand c).1 hc) (fun c hc => hno c ((hcand c).1 hc)) le_rfl
    refine ⟨s', g1, fun r' => ?_⟩
    obtain ⟨r0, g3⟩ := g2 r'
    refine ⟨r0, ?_⟩
    unfold growRegion
    have : getNbrs s.nbrs r = .ok N := by unfold getNbrs; rw [hN1]
    simp only [this, Res.bind_ok]
    rw [hl] at g3 ⊢
    rw [g3]
    rfl
  | @better x y a ha hv _ ih =>
    exact hot_grow_step hs ha rfl (fun r' => ⟨r', sa_call_better he ht ha hv r'⟩) ih
  | @worse x y a ha hv hp _ ih =>
    refine hot_grow_step hs (y := takenWorse x a r) ha rfl (fun r' => ⟨Rng.cons 0 r', ?_⟩) ih
    rw [sa_call_worse he ht ha hv, randomLt_zero (mayTake_iff.1 hp)]

end

theorem hotGrown_image {r : Int} {x y : Annealing (Fin k)} (h : HG r x y) (z : Int) :
    (∃ i, y.labels i = z) ↔ ∃ i, x.labels i = z := by
  induction h with
  | stop => rfl
  | better ha _ _ ih => exact ih.trans (moved_image ha z)
  | worse ha _ _ _ ih => exact ih.trans (moved_image ha z)

theorem hotPassed_image {rs : List Int} {x y : Annealing (Fin k)} (h : HP rs x y) (z : Int) :
    (∃ i, y.labels i = z) ↔ ∃ i, x.labels i = z := by
  induction h with
  | nil => rfl
  | cons h _ ih => exact ih.trans (hotGrown_image h z)

theorem hotRounds_image {x y : Annealing (Fin k)} (h : HR x y) (z : Int) :
    (∃ i, y.labels i = z) ↔ ∃ i, x.labels i = z := by
  induction h with
  | last _ hp => exact hotPassed_image hp z
  | again _ hp _ _ ih => exact ih.trans (hotPassed_image hp z)

section
variable (he : obj.Exact) (ht : obj.Total) (hs : Spec.Symmetric adj)
include he ht hs

theorem hot_pass_sound (fuel : Nat) : ∀ (m : Nat) (regions : List Int) (s : AzpState (Strat n q) k)
    (x : Annealing (Fin k)), H s x → (∀ r ∈ regions, ∃ i, x.labels i = r) →
    ∀ s', passRegions OPS adj fuel m regions s = .ok s' →
    ∃ rs y, rs.Perm regions ∧ HP rs x y ∧ H s' y := by
  intro m
  induction m with
  | zero =>
    intro regions s x h hr s' hrun
    cases regions with
    | nil => unfold passRegions at hrun; cases hrun; exact ⟨[], x, .refl _, .nil, h⟩
    | cons => unfold passRegions at hrun; cases hrun
  | succ m ih =>
    intro regions s x h hr s' hrun
    cases regions with
    | nil => unfold passRegions at hrun; cases hrun; exact ⟨[], x, .refl _, .nil, h⟩
    | cons a xs =>
      unfold passRegions at hrun
      obtain ⟨pos, hpos, hpop⟩ := popRandomlyFrom_ne_nil (lst := a :: xs) (by simp) s.rng
      rw [hpop, Res.bind_ok] at hrun
      dsimp only at hrun
      rw [Res.bind_eq_ok] at hrun
      obtain ⟨s1, h1, h2⟩ := hrun
      have hrm := hr _ (List.getElem_mem hpos)
      obtain ⟨y, g1, g2⟩ := hot_grow_sound he ht hs fuel _ x (h.draw _) hrm s1 h1
      obtain ⟨rs, z, i1, i2, i3⟩ := ih _ s1 y g2 (fun r h => (hotGrown_image g1 r).2
        (hr r (List.mem_of_mem_eraseIdx h))) s' h2
      refine ⟨_, z, ?_, .cons g1 i2, i3⟩
      exact (i1.cons _).trans (List.getElem_cons_eraseIdx_perm hpos)

theorem hot_pass_complete {fuel : Nat} (hf : k < fuel) : ∀ {rs : List Int} {x y : Annealing (Fin k)},
    HP rs x y → ∀ (m : Nat) (regions : List Int), rs.Perm regions → regions.length ≤ m →
    ∀ s : AzpState (Strat n q) k, H s x → (∀ r ∈ regions, ∃ i, x.labels i = r) →
      HotLeads (passRegions OPS adj fuel m regions) id s fun s' => H s' y := by
  intro rs x y hp
  induction hp with
  | nil =>
    intro m regions hperm hm s h hr
    have := hperm.nil_eq
    subst this
    exact ⟨s, h, fun r' => ⟨r', by unfold passRegions; rfl⟩⟩
  | @cons r rs x y z hg hp ih =>
    intro m regions hperm hm s h hr
    obtain ⟨pos, hpos, hx⟩ := List.mem_iff_getElem.1 (hperm.mem_iff.1 (List.mem_cons_self ..))
    obtain ⟨m, rfl⟩ : ∃ j, m = j + 1 := ⟨m - 1, by omega⟩
    have hperm' : rs.Perm (regions.eraseIdx pos) := by
      have := hperm.trans (List.getElem_cons_eraseIdx_perm hpos).symm
      rw [hx] at this
      exact this.cons_inv
    have hrm : ∃ i, x.labels i = r := hr r (hx ▸ List.getElem_mem hpos)
    obtain ⟨s1, g1, g2⟩ := hot_grow_complete he ht hs hg fuel s h hrm (by omega)
    obtain ⟨s', i1, i2⟩ := ih m _ hperm' (by rw [List.length_eraseIdx_of_lt hpos]; omega) s1 g1
      (fun x hx => (hotGrown_image hg x).2 (hr x (List.mem_of_mem_eraseIdx hx)))
    refine ⟨s', i1, fun r' => ?_⟩
    obtain ⟨r1, i3⟩ := i2 r'
    obtain ⟨r0, g3⟩ := g2 r1
    refine ⟨Rng.cons pos r0, ?_⟩
    cases regions with
    | nil => cases hpos
    | cons a xs =>
      unfold passRegions
      dsimp only
      rw [popRandomlyFrom_any (a :: xs) pos hpos r0, Res.bind_ok]
      dsimp only
      rw [hx, g3]
      exact i3

omit he ht hs in
theorem hotHolds_value {s : AzpState (Strat n q) k} {x : Annealing (Fin k)} (h : H s x) :
    (OPS).objVal s.strat = V x.labels := by
  rw [h.strat]; rfl

theorem hot_outer_sound (fuel : Nat) {regions : List Int} (hnd : regions.Nodup) : ∀ (m : Nat)
    (start : Option ℚ) (s : AzpState (Strat n q) k) (x : Annealing (Fin k)), H s x →
    (∀ r, r ∈ regions ↔ ∃ i, x.labels i = r) → improving start (V x.labels) = true →
    ∀ s', azpOuter OPS adj regions fuel m start (V x.labels) s = .ok s' →
    ∃ y, HR x y ∧ H s' y := by
  intro m
  induction m with
  | zero => intro start s L h hr hi s' hrun; unfold azpOuter at hrun; rw [if_pos hi] at hrun; cases hrun
  | succ m ih =>
    intro start s x h hr hi s' hrun
    unfold azpOuter at hrun
    rw [if_pos hi] at hrun
    dsimp only at hrun
    rw [Res.bind_eq_ok] at hrun
    obtain ⟨s1, h1, h2⟩ := hrun
    obtain ⟨rs, y, p1, p2, p3⟩ := hot_pass_sound he ht hs fuel _ regions s x h (fun r h => (hr r).1 h) s1 h1
    have hen : Enumerates rs x.labels := ⟨p1.nodup_iff.2 hnd, fun x => p1.mem_iff.trans (hr x)⟩
    rw [hotHolds_value p3] at h2
    by_cases hlt : V y.labels < V x.labels
    · obtain ⟨z, i1, i2⟩ := ih (some (V x.labels)) s1 y p3
        (fun r => (hr r).trans (hotPassed_image p2 r).symm) (by simpa [improving] using hlt) s' h2
      exact ⟨z, .again hen p2 hlt i1, i2⟩
    · unfold azpOuter at h2
      rw [if_neg (by simpa [improving] using hlt)] at h2
      cases h2
      exact ⟨y, .last hen p2 hlt, p3⟩

theorem hot_outer_complete {fuel : Nat} (hf : k < fuel) {regions : List Int} (hnd : regions.Nodup)
    {x y : Annealing (Fin k)} (hR : HR x y) :
    ∃ m, ∀ (start : Option ℚ) (s : AzpState (Strat n q) k), H s x →
      (∀ r, r ∈ regions ↔ ∃ i, x.labels i = r) → improving start (V x.labels) = true →
      HotLeads (azpOuter OPS adj regions fuel m start (V x.labels)) id s fun s' => H s' y := by
  induction hR with
  | @last rs x y hen hp hlt =>
    refine ⟨1, fun start s h hr hi => ?_⟩
    have hperm : rs.Perm regions :=
      (List.perm_ext_iff_of_nodup hen.1 hnd).2 fun x => (hen.2 x).trans (hr x).symm
    obtain ⟨s', g1, g2⟩ := hot_pass_complete he ht hs hf hp regions.length regions hperm le_rfl s h
      (fun r h => (hr r).1 h)
    refine ⟨s', g1, fun r' => ?_⟩
    obtain ⟨r0, g3⟩ := g2 r'
    refine ⟨r0, ?_⟩
    unfold azpOuter
    rw [if_pos hi]
    dsimp only
    rw [g3, Res.bind_ok]
    unfold azpOuter
    dsimp only [id]
    rw [if_neg (by rw [hotHolds_value g1]; simpa [improving] using hlt)]
  | @again rs x y z hen hp hlt hR ih =>
    obtain ⟨m, ih⟩ := ih
    refine ⟨m + 1, fun start s h hr hi => ?_⟩
    have hperm : rs.Perm regions :=
      (List.perm_ext_iff_of_nodup hen.1 hnd).2 fun x => (hen.2 x).trans (hr x).symm
    obtain ⟨s1, g1, g2⟩ := hot_pass_complete he ht hs hf hp regions.length regions hperm le_rfl s h
      (fun r h => (hr r).1 h)
    obtain ⟨s', i1, i2⟩ := ih (some (V x.labels)) s1 g1 (fun r => (hr r).trans (hotPassed_image hp r).symm)
        (by simpa [improving] using hlt)
    refine ⟨s', i1, fun r' => ?_⟩
    obtain ⟨r1, i3⟩ := i2 r'
    obtain ⟨r0, g3⟩ := g2 r1
    refine ⟨r0, ?_⟩
    unfold azpOuter
    rw [if_pos hi]
    dsimp only
    rw [g3, Res.bind_ok]
    dsimp only [id]
    rw [hotHolds_value g1]
    exact i3

end

/-- With one region there is nothing to do. -/
theorem hotRounds_one {x y : Annealing (Fin k)} (h1 : numRegions x.labels = 1) (h : HR x y) : y = x := by
  have hno : ∀ a r, ¬ Admissible adj x.labels a r := by
    obtain ⟨z, hz⟩ := Finset.card_eq_one.1 h1
    have : ∀ i, x.labels i = z := fun i => by
      have : x.labels i ∈ Finset.univ.image x.labels := by simp
      rw [hz] at this; simpa using this
    rintro a r ⟨g1, ⟨u, g2, _⟩, _⟩
    exact g1 (by rw [← g2, this, this])
  have hgrow : ∀ {r : Int} {y z : Annealing (Fin k)}, y = x → HG r y z → z = x := by
    intro r y z he hg
    subst he
    cases hg with
    | stop => rfl
    | better ha => exact absurd ha (hno _ _)
    | worse ha => exact absurd ha (hno _ _)
  have hpass : ∀ {rs : List Int} {y z : Annealing (Fin k)}, y = x → HP rs y z → z = x := by
    intro rs y z he hp
    induction hp with
    | nil => exact he
    | cons hg _ ih => exact ih (hgrow he hg)
  cases h with
  | last _ hp => exact hpass rfl hp
  | again _ hp hv => rw [hpass rfl hp] at hv; exact absurd hv (lt_irrefl _)

theorem hotRounds_one_self {x : Annealing (Fin k)} (h1 : numRegions x.labels = 1) : HR x x := by
  obtain ⟨z, hz⟩ := Finset.card_eq_one.1 h1
  have hall : ∀ i, x.labels i = z := fun i => by
    have : x.labels i ∈ Finset.univ.image x.labels := by simp
    rw [hz] at this; simpa using this
  have hex : ∃ i, x.labels i = z := by
    have : z ∈ Finset.univ.image x.labels := by rw [hz]; simp
    simpa using this
  refine .last (rs := [z]) ⟨by simp, fun x => ?_⟩ (.cons (.stop ?_) .nil) (lt_irrefl _)
  · rw [List.mem_singleton]
    exact ⟨fun h => h ▸ hex, fun ⟨i, hi⟩ => by rw [← hi, hall]⟩
  · rintro a ⟨g1, _⟩
    exact absurd (hall a) g1

section
variable (he : obj.Exact) (ht : obj.Total) (hs : Spec.Symmetric adj)
include he ht hs

theorem hot_component_sound {fuel : Nat} {x : Annealing (Fin k)} (hk : 0 < k)
    (hc : AllContiguous adj x.labels) {rng rng' : Rng} {L : Labels k} {st' : Strat n q}
    (hrun : azpComponent OPS adj fuel x.labels (SaAt n q attr obj t term x) rng = .ok (L, st', rng')) :
    ∃ y, HR x y ∧ L = y.labels ∧ st' = SaAt n q attr obj t term y := by
  unfold azpComponent at hrun
  dsimp only at hrun
  rw [length_unique_labels] at hrun
  have hreg : ∀ r, r ∈ uniqueSorted (arrayList x.labels) ↔ ∃ i, x.labels i = r := by
    intro r; rw [mem_uniqueSorted, mem_arrayList]
  by_cases h1 : numRegions x.labels = 1
  · rw [if_pos h1] at hrun
    cases hrun
    exact ⟨x, hotRounds_one_self h1, rfl, rfl⟩
  · rw [if_neg h1] at hrun
    have h0 : uniqueSorted (arrayList x.labels) ≠ [] := by
      intro h
      have := (hreg (x.labels ⟨0, hk⟩)).2 ⟨_, rfl⟩
      rw [h] at this; cases this
    rw [if_neg h0, Res.bind_eq_ok] at hrun
    obtain ⟨s, h2, h3⟩ := hrun
    cases h3
    obtain ⟨y, i1, i2⟩ := hot_outer_sound he ht hs fuel (uniqueSorted_nodup _) fuel none _ x
      ⟨rfl, initNbrs_ok adj x.labels, hc, rfl⟩ hreg rfl s h2
    exact ⟨y, i1, i2.labels, i2.strat⟩

theorem hot_component_complete {fuel : Nat} {x y : Annealing (Fin k)} (hk : 0 < k)
    (hc : AllContiguous adj x.labels) (hf : k < fuel)
    (htot : ∀ rng, azpComponent OPS adj fuel x.labels (SaAt n q attr obj t term x) rng ≠ .timeout)
    (hR : HR x y) (r' : Rng) :
    ∃ r0, azpComponent OPS adj fuel x.labels (SaAt n q attr obj t term x) r0 =
      .ok (y.labels, SaAt n q attr obj t term y, r') := by
  unfold azpComponent at htot ⊢
  dsimp only at htot ⊢
  rw [length_unique_labels] at htot ⊢
  have hreg : ∀ r, r ∈ uniqueSorted (arrayList x.labels) ↔ ∃ i, x.labels i = r := by
    intro r; rw [mem_uniqueSorted, mem_arrayList]
  by_cases h1 : numRegions x.labels = 1
  · have := hotRounds_one h1 hR
    subst this
    exact ⟨r', by rw [if_pos h1]⟩
  · have h0 : uniqueSorted (arrayList x.labels) ≠ [] := by
      intro h
      have := (hreg (x.labels ⟨0, hk⟩)).2 ⟨_, rfl⟩
      rw [h] at this; cases this
    simp only [if_neg h1, if_neg h0] at htot ⊢
    obtain ⟨m, hm⟩ := hot_outer_complete (n := n) (q := q) (idx := idx) (term := term) he ht hs hf
      (uniqueSorted_nodup (arrayList x.labels)) hR
    obtain ⟨s', g1, g2⟩ := hm none
      ⟨x.labels, initNbrs adj x.labels (uniqueSorted (arrayList x.labels)), SaAt n q attr obj t term x,
        fun _ => 0⟩ ⟨rfl, initNbrs_ok adj x.labels, hc, rfl⟩ hreg rfl
    obtain ⟨r0, g3⟩ := g2 r'
    refine ⟨r0, ?_⟩
    have ht := htot r0
    dsimp only [id] at g3
    have hval : (OPS).objVal (SaAt n q attr obj t term x) = V x.labels := rfl
    rw [hval] at ht ⊢
    have key : azpOuter OPS adj (uniqueSorted (arrayList x.labels)) fuel fuel none (V x.labels)
        { labels := x.labels, nbrs := initNbrs adj x.labels (uniqueSorted (arrayList x.labels)),
          strat := SaAt n q attr obj t term x, rng := r0 }
        = .ok { s' with rng := r' } := by
      rcases le_total m fuel with h | h
      · rw [outer_mono _ _ m fuel _ _ _ h (by rw [g3]; simp), g3]
      · rw [← g3]
        refine (outer_mono _ _ fuel m _ _ _ h fun hto => ht ?_).symm
        rw [hto]; rfl
    rw [key, Res.bind_ok, g1.labels, g1.strat]

end

end Component

end Region
