import Verif.Lemmas.TabuExactFit
import Verif.Lemmas.Layers
import Verif.SpecTabuMay
/-
The basic tabu search under a rule, with all its possible results: one component.
-/
namespace Region

open Spec Props

/-- The variables apart from the strategy. -/
def TabuState.plain {σ : Type} {k : Nat} (s : TabuState σ k) : TabuState (Strat 0 0) k :=
  ⟨s.labels, s.tabu, s.visited, s.stop, .azp 0, s.rng⟩

section
variable {k : Nat} {ρ σ : Type} {metric : ρ → ρ → ℚ} {attr : Fin k → ρ} {adj : Adj k}

/-- The strategy decides by the rule and nothing else. -/
structure Rules (adj : Adj k) (metric : ρ → ρ → ℚ) (attr : Fin k → ρ) (ops : StratOps σ k) (P : σ → Prop)
    (may : Labels k → Fin k → Int → Prop) : Prop where
  call : ∀ {st a r L d}, P st → (pairwise metric).update a r L attr = some d → ∃ b st',
    (∀ rng, ops.call st a r L rng = .ok (b, st', rng)) ∧ (b = true ↔ may L a r) ∧ P st'
  le : ∀ {a r L}, may L a r → (pairwise metric).call (moved L a r) attr ≤ (pairwise metric).call L attr
  keeps : ∀ {a r L L'}, Admissible adj L a r →
    (pairwise metric).call (moved L a r) attr ≤ (pairwise metric).call L attr → ¬ may L a r → may L' a r →
    ∃ b, b ≠ a ∧ L' b = L' a

variable {ops : StratOps σ k} {P : σ → Prop} {may : Labels k → Fin k → Int → Prop}
  {len : Option Nat} {x y z : Search (Fin k)} {s : TabuState σ k} {init : Labels k} {reps : Int}

theorem TabuInv.plain (hi : TabuInv adj P init s) : AzpInv adj init s.plain :=
  ⟨hi.cont, hi.image, hi.tabu, 0, rfl⟩

section
variable (hsym : ∀ x y, metric x y = metric y x) (h0 : ∀ x, metric x x = 0) (hp : ∀ x y, 0 ≤ metric x y)
  (hR : Rules adj metric attr ops P may)
include hsym h0 hp hR

omit hsym h0 hp in
/-- A move is tried. -/
theorem tryMove_may (hx : Shows len x s.plain) (hi : TabuInv adj P init s) {m : Move k} {d : ℚ}
    (hd : (pairwise metric).update m.area m.new s.labels attr = some d)
    (hk : may s.labels m.area m.new → s.labels m.area = m.new ∨ ∃ b, b ≠ m.area ∧ s.labels b = s.labels m.area) :
    ∃ b y s', (b = true ↔ may x.labels m.area m.new) ∧ (b = true → Sent adj m.area m.new x y) ∧
      (b = false → y = x) ∧ Shows len y s'.plain ∧ TabuInv adj P init s' ∧
      ∀ r, tryMove ops adj m { s with rng := r } = .ok (b, { s' with rng := r }) := by
  have hxl : s.labels = x.labels := hx.labels
  obtain ⟨b, st', h1, h2, h3⟩ := hR.call hi.strat hd
  obtain ⟨hr, -⟩ := pairwise_update_iff.1 hd
  cases b with
  | false =>
    refine ⟨false, x, { s with strat := st' }, by rw [← hxl]; exact h2, by simp, fun _ => rfl,
      ⟨hx.labels, hx.maxlen, hx.tabu, hx.seen, hx.stop, 0, rfl⟩, ⟨hi.cont, hi.image, hi.tabu, h3⟩, fun r => ?_⟩
    unfold tryMove
    dsimp only
    rw [h1, Res.bind_ok]
    dsimp only
    rw [if_neg (by simp)]
  | true =>
    obtain ⟨c, L', g1, g2, g3, g4, g5⟩ := tabuMakeMove_spec m.area m.new hi.cont s.tabu
    have himg : ∀ x, (∃ i, L' i = x) ↔ ∃ i, s.labels i = x := by
      cases c with
      | false => rw [g4 rfl]; exact fun _ => Iff.rfl
      | true => rw [g3 rfl]; exact moved_same_image hr (hk (h2.1 rfl))
    refine ⟨true, ⟨L', x.barred ++ [⟨m.area, m.new, x.labels m.area⟩], x.seen, x.due⟩,
      { s with labels := L', tabu := s.tabu.append ⟨m.area, m.new, s.labels m.area⟩, strat := st' },
      by rw [← hxl]; exact h2, fun _ => ⟨rfl, rfl, rfl, fun h => ?_, fun h => ?_⟩, by simp,
      hx.append (a := m.area) (r := m.new) (st := .azp 0) ⟨_, rfl⟩ (L := L') (rng := s.rng),
      ⟨g5, fun x => (himg x).trans (hi.image x), tabu_inv_append hi.image hi.tabu (.inr rfl), h3⟩, fun r => ?_⟩
    · rw [← hxl] at h ⊢
      exact g3 (g2.2 h)
    · rw [← hxl] at h ⊢
      refine g4 ?_
      cases c with
      | true => exact absurd (g2.1 rfl) h
      | false => rfl
    · unfold tryMove
      dsimp only
      rw [h1, Res.bind_ok]
      dsimp only
      rw [if_pos rfl, g1, Res.bind_ok]

/-- Where an aspiration move leads. -/
def Slid (metric : ρ → ρ → ℚ) (attr : Fin k → ρ) (L L' : Labels k) : Prop :=
  L' = L ∨ ∃ a r d, L' = moved L a r ∧ (pairwise metric).update a r L attr = some d ∧ d < 0

/-- An aspirant is tried. -/
theorem aspirant_may (hx : Shows len x s.plain) (hi : TabuInv adj P init s) {m : Move k}
    (hm : Aspirant (fun L => (pairwise metric).call L attr) len x m.shift) :
    ∃ y s', MayAspire adj (fun L => (pairwise metric).call L attr) may len x y ∧
      (may x.labels m.area m.new → Sent adj m.area m.new x y) ∧ (¬ may x.labels m.area m.new → y = x) ∧
      Slid metric attr x.labels y.labels ∧ y.due = x.due ∧
      Shows len y s'.plain ∧ TabuInv adj P init s' ∧
      ∃ b, ∀ r, tryMove ops adj m { s with rng := r } = .ok (b, { s' with rng := r }) := by
  obtain ⟨u, hu⟩ := (hi.image m.new).2 (hi.tabu m ((hx.mem (m := m)).2 hm.1))
  have hd := pairwise_update_iff (metric := metric) (attr := attr) (a := m.area) (r := m.new).2 ⟨⟨u, hu⟩, rfl⟩
  have hxl : s.labels = x.labels := hx.labels
  have hneg := (pairwise_value hsym h0 hd).2.2 (by rw [hxl]; exact hm.2.2)
  have hfell : may s.labels m.area m.new → s.labels m.area = m.new ∨
      ∃ b, b ≠ m.area ∧ s.labels b = s.labels m.area := fun _ => .inr (pairwise_neg hp h0 hd hneg).2
  obtain ⟨b, y, s', h1, h2, h3, h4, h5, h6⟩ := tryMove_may hR hx hi hd hfell
  have hs1 : may x.labels m.area m.new → Sent adj m.area m.new x y := fun h => h2 (h1.2 h)
  have hs2 : ¬ may x.labels m.area m.new → y = x := by
    intro h
    refine h3 ?_
    cases b with
    | true => exact absurd (h1.1 rfl) h
    | false => rfl
  refine ⟨y, s', .inr ⟨m.shift, hm, hs1, hs2⟩, hs1, hs2, ?_, ?_, h4, h5, b, h6⟩
  · by_cases hmay : may x.labels m.area m.new
    · obtain ⟨-, -, -, g4, g5⟩ := hs1 hmay
      by_cases hc : AllContiguous adj (moved x.labels m.area m.new)
      · refine .inr ⟨m.area, m.new, _, g4 hc, ?_, hneg⟩
        rw [← hxl]
        exact hd
      · exact .inl (g5 hc)
    · exact .inl (by rw [hs2 hmay])
  · by_cases hmay : may x.labels m.area m.new
    · exact (hs1 hmay).2.2.1
    · rw [hs2 hmay]

/-- Step 3 as the specification says. -/
theorem aspiration_may (hx : Shows len x s.plain) (hi : TabuInv adj P init s) {s' : TabuState σ k}
    (h : aspiration ops (pairwise metric) attr adj s = .ok s') :
    ∃ y, MayAspire adj (fun L => (pairwise metric).call L attr) may len x y ∧
      Slid metric attr x.labels y.labels ∧ y.due = x.due ∧ Shows len y s'.plain ∧ TabuInv adj P init s' := by
  obtain ⟨moves, h1, h2⟩ := improvingTabus_aspirant hsym h0 (attr := attr) hx hi.plain
  unfold aspiration at h
  rw [show improvingTabus (pairwise metric) attr s.labels s.tabu.items = .ok moves from h1, Res.bind_ok] at h
  by_cases hnil : moves = []
  · rw [if_pos hnil] at h
    cases h
    refine ⟨x, .inl ⟨rfl, fun m hm => ?_⟩, .inl rfl, rfl, hx, hi⟩
    have := (h2 (Move.ofShift m)).2 hm
    rw [hnil] at this
    cases this
  · rw [if_neg hnil] at h
    obtain ⟨m, hm, hr⟩ := randomElementFrom_ne_nil hnil s.rng
    rw [hr, Res.bind_ok, Res.bind_eq_ok] at h
    obtain ⟨⟨b, s1⟩, h3, h4⟩ := h
    cases h4
    obtain ⟨y, s', g1, -, -, g4, g5, g6, g7, b, g8⟩ := aspirant_may hsym h0 hp hR hx hi ((h2 m).1 hm)
    rw [g8] at h3
    cases h3
    exact ⟨y, g1, g4, g5, g6.rng _, g7.cont, g7.image, g7.tabu, g7.strat⟩

theorem may_aspiration (hx : Shows len x s.plain) (hi : TabuInv adj P init s)
    (h : MayAspire adj (fun L => (pairwise metric).call L attr) may len x y) :
    ∃ s' : TabuState σ k, Slid metric attr x.labels y.labels ∧ y.due = x.due ∧ Shows len y s'.plain ∧
      TabuInv adj P init s' ∧
      ∀ r', ∃ r0, aspiration ops (pairwise metric) attr adj { s with rng := r0 } = .ok { s' with rng := r' } := by
  obtain ⟨moves, h1, h2⟩ := improvingTabus_aspirant hsym h0 (attr := attr) hx hi.plain
  have h1 : improvingTabus (pairwise metric) attr s.labels s.tabu.items = .ok moves := h1
  rcases h with ⟨rfl, h⟩ | ⟨m, hm, hs1, hs2⟩
  · refine ⟨s, .inl rfl, rfl, hx, hi, fun r' => ⟨r', ?_⟩⟩
    unfold aspiration
    rw [h1, Res.bind_ok, if_pos (List.eq_nil_iff_forall_not_mem.2 fun m hm => h _ ((h2 m).1 hm))]
  · have hmem := (h2 (Move.ofShift m)).2 hm
    obtain ⟨y', s', g1, g2, g3, g4, g5, g6, g7, b, g8⟩ :=
      aspirant_may hsym h0 hp hR hx hi (m := Move.ofShift m) hm
    have hy : y = y' := by
      by_cases hmay : may x.labels m.area m.new
      · exact sent_unique (hs1 hmay) (g2 hmay)
      · rw [hs2 hmay, g3 hmay]
    subst hy
    refine ⟨s', g4, g5, g6, g7, fun r' => ?_⟩
    obtain ⟨r0, hr⟩ := randomElementFrom_any hmem r'
    refine ⟨r0, ?_⟩
    unfold aspiration
    rw [h1, Res.bind_ok, if_neg (List.ne_nil_of_mem hmem), hr, Res.bind_ok]
    dsimp only
    rw [g8, Res.bind_ok]

/-- What the search for the best move found when the best move is not made, in terms of the specification. -/
def FoundMay (adj : Adj k) (metric : ρ → ρ → ℚ) (attr : Fin k → ρ) (may : Labels k → Fin k → Int → Prop)
    (len : Option Nat) (x : Search (Fin k)) : Option (Nat × Move k × ℚ) → Prop
  | none => ∀ m, ¬ Open adj len x m
  | some (_, m, d) => Best adj (fun L => (pairwise metric).call L attr) len x m.shift ∧
      Admissible adj x.labels m.area m.new ∧ (pairwise metric).update m.area m.new x.labels attr = some d ∧
      (0 < d ∨ ¬ may x.labels m.area m.new)

/-- The last step of a round. -/
theorem retry_may (hx : Shows len x s.plain) (hi : TabuInv adj P init s) {t : TabuState σ k}
    (hz : Shows len z t.plain) (ht : TabuInv adj P init t) (hsl : Slid metric attr x.labels z.labels)
    {j : Nat} {m : Move k} {d : ℚ} (hm : FoundMay adj metric attr may len x (some (j, m, d))) :
    ∃ y t', MayRetry adj (fun L => (pairwise metric).call L attr) may len x z y ∧ Shows len y t'.plain ∧
      TabuInv adj P init t' ∧
      ∃ b, ∀ r, tryMove ops adj m { t with rng := r } = .ok (b, { t' with rng := r }) := by
  obtain ⟨hbest, hadm, hd, hblock⟩ := hm
  obtain ⟨u, hu, -⟩ := hadm.2.1
  have hxl : s.labels = x.labels := hx.labels
  have hzl : t.labels = z.labels := hz.labels
  have himg : ∃ i, s.labels i = m.new := by rw [hxl]; exact ⟨u, hu⟩
  obtain ⟨u', hu'⟩ := (ht.image m.new).2 ((hi.image m.new).1 himg)
  have hd1 := pairwise_update_iff (metric := metric) (attr := attr) (a := m.area) (r := m.new).2 ⟨⟨u', hu'⟩, rfl⟩
  have hv := (pairwise_value hsym h0 hd1).1
  obtain ⟨b, y, t', h1, h2, h3, h4, h5, h6⟩ := tryMove_may hR hz ht hd1 (fun hmay => by
    have hle := hv.2 (hR.le hmay)
    by_cases hpos : 0 < d
    · refine pairwise_stale hp h0 hd hpos hd1 hle hadm.2.2.1 ?_
      rw [hzl]
      exact hsl
    · right
      refine hR.keeps hadm ?_ (hblock.resolve_left hpos) hmay
      exact (pairwise_value hsym h0 hd).1.1 (not_lt.1 hpos))
  refine ⟨y, t', ?_, h4, h5, b, h6⟩
  cases b with
  | true => exact .inl ⟨m.shift, hbest, h1.1 rfl, h2 rfl⟩
  | false =>
    refine .inr ⟨fun m' hm' hmay => ?_, h3 rfl⟩
    cases best_unique hm' hbest
    have := h1.2 hmay
    cases this

omit hsym h0 hp hR in
theorem mayRetry_unique {V : Type} [Preorder V] [DecidableEq V] {adj : V → V → Bool} {value : (V → Int) → ℚ}
    {may : (V → Int) → V → Int → Prop} {x y z y' : Search V} (h : MayRetry adj value may len x z y)
    (h' : MayRetry adj value may len x z y') : y = y' := by
  rcases h with ⟨m, h1, h2, h3⟩ | ⟨h1, rfl⟩ <;> rcases h' with ⟨m', h1', h2', h3'⟩ | ⟨h1', rfl⟩
  · cases best_unique h1 h1'
    exact sent_unique h3 h3'
  · exact absurd h2 (h1' m h1)
  · exact absurd h2' (h1 m' h1')
  · rfl

/-- Steps 3 and 4. -/
theorem basicElse_may (hx : Shows len x s.plain) (hi : TabuInv adj P init s) {b : Option (Nat × Move k × ℚ)}
    (hb : FoundMay adj metric attr may len x b) {done : Bool} {s' : TabuState σ k}
    (h : basicElse ops (pairwise metric) attr adj b s = .ok (done, s')) :
    TabuInv adj P init s' ∧ ∃ z, MayAspire adj (fun L => (pairwise metric).call L attr) may len x z ∧
      ((done = true ∧ x.due ∧ Shows len z s'.plain) ∨ (done = false ∧ ¬ x.due ∧
        ∃ y, MayRetry adj (fun L => (pairwise metric).call L attr) may len x z y ∧ Shows len y s'.plain)) := by
  unfold basicElse at h
  rw [Res.bind_eq_ok] at h
  obtain ⟨t, ht, h⟩ := h
  obtain ⟨z, hz, hsl, hdue, hsz, hti⟩ := aspiration_may hsym h0 hp hR hx hi ht
  by_cases hst : t.stop = true
  · rw [if_pos hst] at h
    cases h
    exact ⟨hti, z, hz, .inl ⟨rfl, hdue ▸ hsz.stop.1 hst, hsz⟩⟩
  · rw [if_neg hst] at h
    have hnd : ¬ x.due := fun hd => hst (hsz.stop.2 (hdue ▸ hd))
    rcases b with _ | ⟨j, m, d⟩
    · cases h
      exact ⟨hti, z, hz, .inr ⟨rfl, hnd, z, .inr ⟨fun m hm => absurd hm.1 (hb m), rfl⟩, hsz⟩⟩
    · dsimp only at h
      obtain ⟨y, t', g1, g2, g4, b, g3⟩ := retry_may hsym h0 hp hR hx hi hsz hti hsl hb
      have h3 := g3 t.rng
      rw [show ({ t with rng := t.rng } : TabuState σ k) = t from rfl] at h3
      rw [h3, Res.bind_ok] at h
      cases h
      exact ⟨⟨g4.cont, g4.image, g4.tabu, g4.strat⟩, z, hz, .inr ⟨rfl, hnd, y, g1, g2.rng _⟩⟩

theorem may_basicElse (hx : Shows len x s.plain) (hi : TabuInv adj P init s) {b : Option (Nat × Move k × ℚ)}
    (hb : FoundMay adj metric attr may len x b)
    (hz : MayAspire adj (fun L => (pairwise metric).call L attr) may len x z) :
    (x.due → ∃ s' : TabuState σ k, Shows len z s'.plain ∧ TabuInv adj P init s' ∧ ∀ r', ∃ r0,
      basicElse ops (pairwise metric) attr adj b { s with rng := r0 } = .ok (true, { s' with rng := r' })) ∧
    (¬ x.due → ∀ y, MayRetry adj (fun L => (pairwise metric).call L attr) may len x z y →
      ∃ s' : TabuState σ k, Shows len y s'.plain ∧ TabuInv adj P init s' ∧ ∀ r', ∃ r0,
      basicElse ops (pairwise metric) attr adj b { s with rng := r0 } = .ok (false, { s' with rng := r' })) := by
  obtain ⟨t, hsl, hdue, hsz, hti, ht⟩ := may_aspiration hsym h0 hp hR hx hi hz
  constructor
  · intro hd
    refine ⟨t, hsz, hti, fun r' => ?_⟩
    obtain ⟨r0, hr⟩ := ht r'
    refine ⟨r0, ?_⟩
    unfold basicElse
    rw [hr, Res.bind_ok, if_pos (show t.stop = true from hsz.stop.2 (hdue ▸ hd))]
  · intro hd y hy
    have hst : ¬ t.stop = true := fun h => hd (hdue ▸ hsz.stop.1 h)
    rcases b with _ | ⟨j, m, d⟩
    · have : y = z := by
        rcases hy with ⟨m, hm, -⟩ | ⟨-, rfl⟩
        · exact absurd hm.1 (hb m)
        · rfl
      subst this
      refine ⟨t, hsz, hti, fun r' => ?_⟩
      obtain ⟨r0, hr⟩ := ht r'
      refine ⟨r0, ?_⟩
      unfold basicElse
      rw [hr, Res.bind_ok, if_neg hst]
    · obtain ⟨y', t', g1, g2, g4, b, g3⟩ := retry_may hsym h0 hp hR hx hi hsz hti hsl hb
      cases mayRetry_unique hy g1
      refine ⟨t', g2, g4, fun r' => ?_⟩
      obtain ⟨r0, hr⟩ := ht r'
      refine ⟨r0, ?_⟩
      unfold basicElse
      rw [hr, Res.bind_ok, if_neg hst]
      dsimp only
      rw [g3, Res.bind_ok]

/-- The first two steps of a round. -/
theorem basicRound_may (hs : Spec.Symmetric adj) (hx : Shows len x s.plain) (hi : TabuInv adj P init s) :
    (¬ Halted adj (fun L => (pairwise metric).call L attr) may len x ∧
      ∃ y s', MayDescend adj (fun L => (pairwise metric).call L attr) may len x y ∧ Shows len y s'.plain ∧
      TabuInv adj P init s' ∧ ∀ r,
      basicRound ops (pairwise metric) attr adj { s with rng := r } = .ok (false, { s' with rng := r })) ∨
    (Halted adj (fun L => (pairwise metric).call L attr) may len x ∧
      (∀ y, ¬ MayDescend adj (fun L => (pairwise metric).call L attr) may len x y) ∧
      ∃ b s', FoundMay adj metric attr may len x b ∧ Shows len x s'.plain ∧ TabuInv adj P init s' ∧ ∀ r,
      basicRound ops (pairwise metric) attr adj { s with rng := r } =
        basicElse ops (pairwise metric) attr adj b { s' with rng := r }) := by
  have hxl : s.labels = x.labels := hx.labels
  obtain ⟨b, hb, ⟨rfl, hnone⟩ | ⟨j, m, d, rfl, hd, hbest, hadm⟩⟩ :=
    bestMove_best (pairwise_exact hsym h0) (pairwise_total metric) (attr := attr) hs hx
  · refine .inr ⟨fun m hm => absurd hm.1 (hnone m), fun y ⟨m, hm, _⟩ => hnone m hm.1, none, s, hnone, hx, hi,
      fun r => ?_⟩
    unfold basicRound
    dsimp only
    rw [show bestMove (pairwise metric) attr s.labels (possibleMoves adj s.labels s.tabu) 0 none = _ from hb,
      Res.bind_ok]
  · have hb : bestMove (pairwise metric) attr s.labels (possibleMoves adj s.labels s.tabu) 0 none = _ := hb
    have hd : (pairwise metric).update m.area m.new s.labels attr = some d := hd
    have hadm : Admissible adj s.labels m.area m.new := hadm
    have hv := (pairwise_value hsym h0 hd).1
    rw [hxl] at hv
    have hno : (0 < d ∨ ¬ may x.labels m.area m.new) →
        Halted adj (fun L => (pairwise metric).call L attr) may len x ∧
        ∀ y, ¬ MayDescend adj (fun L => (pairwise metric).call L attr) may len x y := by
      intro h
      refine ⟨fun m' hm' => ?_, fun y ⟨m', hm', hle', hmay', _⟩ => ?_⟩
      · cases best_unique hm' hbest
        refine h.imp_left fun hpos => ?_
        exact not_le.1 fun h => absurd (hv.2 h) (not_le.2 hpos)
      · cases best_unique hm' hbest
        rcases h with hpos | h
        · exact absurd (hv.2 hle') (not_le.2 hpos)
        · exact h hmay'
    by_cases hle : d ≤ 0
    · obtain ⟨b, y, s', g1, g2, g3, g4, g5, g6⟩ := tryMove_may hR hx hi hd fun _ => .inr hadm.2.2.1
      cases b with
      | true =>
        refine .inl ⟨fun h => ?_, y, s', ⟨m.shift, hbest, hv.1 hle, g1.1 rfl, g2 rfl⟩, g4, g5, fun r => ?_⟩
        · rcases h m.shift hbest with h | h
          · exact absurd (hv.1 hle) (not_le.2 h)
          · exact h (g1.1 rfl)
        · unfold basicRound
          dsimp only
          rw [hb, Res.bind_ok]
          dsimp only
          rw [if_pos hle, g6, Res.bind_ok]
          dsimp only
          rw [if_pos rfl]
      | false =>
        have hnm : ¬ may x.labels m.area m.new := fun h => nomatch g1.2 h
        cases g3 rfl
        refine .inr ⟨(hno (.inr hnm)).1, (hno (.inr hnm)).2, some (j, m, d), s',
          ⟨hbest, by rw [← hxl]; exact hadm, by rw [← hxl]; exact hd, .inr hnm⟩, g4, g5, fun r => ?_⟩
        unfold basicRound
        dsimp only
        rw [hb, Res.bind_ok]
        dsimp only
        rw [if_pos hle, g6, Res.bind_ok]
        dsimp only
        rw [if_neg (by simp)]
    · refine .inr ⟨(hno (.inl (not_le.1 hle))).1, (hno (.inl (not_le.1 hle))).2, some (j, m, d), s,
        ⟨hbest, by rw [← hxl]; exact hadm, by rw [← hxl]; exact hd, .inl (not_le.1 hle)⟩, hx, hi, fun r => ?_⟩
      unfold basicRound
      dsimp only
      rw [hb, Res.bind_ok]
      dsimp only
      rw [if_neg hle]

/-- A round of the program is a round of the specification. -/
theorem mayRound_sound (hs : Spec.Symmetric adj) (hx : Shows len x s.plain) (hi : TabuInv adj P init s) {done : Bool}
    {s' : TabuState σ k}
    (h : basicRound ops (pairwise metric) attr adj (noteVisit reps s) = .ok (done, s')) :
    TabuInv adj P init s' ∧
    ((done = true ∧ MayEnd adj (fun L => (pairwise metric).call L attr) may len reps x s'.labels) ∨
      (done = false ∧ ∃ y, MayRound adj (fun L => (pairwise metric).call L attr) may len reps x y ∧
        Shows len y s'.plain)) := by
  have hi' : TabuInv adj P init (noteVisit reps s) := ⟨hi.cont, hi.image, hi.tabu, hi.strat⟩
  have hx' : Shows len (noted reps x) (noteVisit reps s).plain := hx.note reps
  rcases basicRound_may hsym h0 hp hR hs hx' hi' with ⟨-, y, t, hy, ht, hti, hr⟩ | ⟨hst, -, b, t, hb, ht, hti, hr⟩
  · have h3 := hr (noteVisit reps s).rng
    rw [show ({ noteVisit reps s with rng := (noteVisit reps s).rng } : TabuState σ k) =
      noteVisit reps s from rfl, h] at h3
    cases h3
    exact ⟨⟨hti.cont, hti.image, hti.tabu, hti.strat⟩, .inr ⟨rfl, y, .inl hy, ht.rng _⟩⟩
  · have h3 := hr (noteVisit reps s).rng
    rw [show ({ noteVisit reps s with rng := (noteVisit reps s).rng } : TabuState σ k) =
      noteVisit reps s from rfl, h] at h3
    obtain ⟨hi1, z, hz, ⟨rfl, hd, hsz⟩ | ⟨rfl, hd, y, hy, hsy⟩⟩ :=
      basicElse_may hsym h0 hp hR (s := { t with rng := (noteVisit reps s).rng }) (ht.rng _) ⟨hti.cont, hti.image, hti.tabu, hti.strat⟩ hb
        h3.symm
    · exact ⟨hi1, .inl ⟨rfl, hst, hd, z, hz, hsz.labels⟩⟩
    · exact ⟨hi1, .inr ⟨rfl, y, .inr ⟨hst, hd, z, hz, hy⟩, hsy⟩⟩

theorem mayRound_end (hs : Spec.Symmetric adj) (hx : Shows len x s.plain) (hi : TabuInv adj P init s) {L : Labels k}
    (h : MayEnd adj (fun L => (pairwise metric).call L attr) may len reps x L) :
    ∃ s' : TabuState σ k, s'.labels = L ∧ P s'.strat ∧ ∀ r', ∃ r0,
      basicRound ops (pairwise metric) attr adj (noteVisit reps { s with rng := r0 }) =
        .ok (true, { s' with rng := r' }) := by
  have hi' : TabuInv adj P init (noteVisit reps s) := ⟨hi.cont, hi.image, hi.tabu, hi.strat⟩
  have hx' : Shows len (noted reps x) (noteVisit reps s).plain := hx.note reps
  obtain ⟨hst, hd, z, hz, rfl⟩ := h
  rcases basicRound_may hsym h0 hp hR hs hx' hi' with ⟨hn, -⟩ | ⟨-, -, b, t, hb, ht, hti, hr⟩
  · exact absurd hst hn
  · obtain ⟨s', hs', hsi, hc⟩ := (may_basicElse hsym h0 hp hR ht hti hb hz).1 hd
    refine ⟨s', hs'.labels, hsi.strat, fun r' => ?_⟩
    obtain ⟨r0, h0⟩ := hc r'
    exact ⟨r0, (hr r0).trans h0⟩

theorem mayRound_next (hs : Spec.Symmetric adj) (hx : Shows len x s.plain) (hi : TabuInv adj P init s)
    (h : MayRound adj (fun L => (pairwise metric).call L attr) may len reps x y) :
    ∃ s' : TabuState σ k, Shows len y s'.plain ∧ TabuInv adj P init s' ∧ ∀ r', ∃ r0,
      basicRound ops (pairwise metric) attr adj (noteVisit reps { s with rng := r0 }) =
        .ok (false, { s' with rng := r' }) := by
  have hi' : TabuInv adj P init (noteVisit reps s) := ⟨hi.cont, hi.image, hi.tabu, hi.strat⟩
  have hx' : Shows len (noted reps x) (noteVisit reps s).plain := hx.note reps
  rcases basicRound_may hsym h0 hp hR hs hx' hi' with
    ⟨hn, y', t, hy', ht, hti, hr⟩ | ⟨hst, hnd, b, t, hb, ht, hti, hr⟩
  · rcases h with hy | ⟨hst, -⟩
    · have : y = y' := by
        obtain ⟨m, h1, -, -, h2⟩ := hy
        obtain ⟨m', h1', -, -, h2'⟩ := hy'
        cases best_unique h1 h1'
        exact sent_unique h2 h2'
      subst this
      exact ⟨t, ht, hti, fun r' => ⟨r', hr r'⟩⟩
    · exact absurd hst hn
  · rcases h with hy | ⟨-, hd, z, hz, hy⟩
    · exact absurd hy (hnd y)
    · obtain ⟨s', hs', hsi, hc⟩ := (may_basicElse hsym h0 hp hR ht hti hb hz).2 hd y hy
      refine ⟨s', hs', hsi, fun r' => ?_⟩
      obtain ⟨r0, h0⟩ := hc r'
      exact ⟨r0, (hr r0).trans h0⟩

/-! ### Loops -/

/-- The search ends with `L` within some number of rounds. -/
inductive MayRunN {V : Type} [LT V] [DecidableEq V] (adj : V → V → Bool) (value : (V → Int) → ℚ)
    (may : (V → Int) → V → Int → Prop) (len : Option Nat) (reps : Int) : Nat → Search V → (V → Int) → Prop
  | stop {F : Nat} {x : Search V} {L : V → Int} (h : MayEnd adj value may len reps x L) :
    MayRunN adj value may len reps (F + 1) x L
  | next {F : Nat} {x y : Search V} {L : V → Int} (h : MayRound adj value may len reps x y)
    (t : MayRunN adj value may len reps F y L) : MayRunN adj value may len reps (F + 1) x L

omit hsym h0 hp hR in
theorem mayRunN_mono {V : Type} [LT V] [DecidableEq V] {adj : V → V → Bool} {value : (V → Int) → ℚ}
    {may : (V → Int) → V → Int → Prop} {F F' : Nat} (hF : F ≤ F') {x : Search V} {L : V → Int}
    (h : MayRunN adj value may len reps F x L) : MayRunN adj value may len reps F' x L := by
  induction h generalizing F' with
  | stop h =>
    obtain ⟨G, rfl⟩ : ∃ G, F' = G + 1 := ⟨F' - 1, by omega⟩
    exact .stop h
  | next h _ ih =>
    obtain ⟨G, rfl⟩ : ∃ G, F' = G + 1 := ⟨F' - 1, by omega⟩
    exact .next h (ih (by omega))

omit hsym h0 hp hR in
theorem mayRun_iff {V : Type} [LT V] [DecidableEq V] {adj : V → V → Bool} {value : (V → Int) → ℚ}
    {may : (V → Int) → V → Int → Prop} {x : Search V} {L : V → Int} :
    MayRun adj value may len reps x L ↔ ∃ F, MayRunN adj value may len reps F x L := by
  constructor
  · intro h
    induction h with
    | stop h => exact ⟨1, .stop h⟩
    | next h _ ih => obtain ⟨F, ih⟩ := ih; exact ⟨F + 1, .next h ih⟩
  · rintro ⟨F, h⟩
    induction h with
    | stop h => exact .stop h
    | next h _ ih => exact .next h ih

/-- The loop in terms of the specification … -/
theorem mayLoop_sound (hs : Spec.Symmetric adj) : ∀ (F : Nat) {x : Search (Fin k)}
    {s : TabuState σ k}, Shows len x s.plain → TabuInv adj P init s → ∀ {s' : TabuState σ k},
    basicLoop ops (pairwise metric) attr adj reps F s = .ok s' →
    MayRunN adj (fun L => (pairwise metric).call L attr) may len reps F x s'.labels ∧ TabuInv adj P init s'
  | 0, x, s, _, _, s', h => by unfold basicLoop at h; cases h
  | F + 1, x, s, hx, hi, s', h => by
    unfold basicLoop at h
    rw [Res.bind_eq_ok] at h
    obtain ⟨⟨done, t⟩, h1, h2⟩ := h
    obtain ⟨hti, ⟨rfl, he⟩ | ⟨rfl, y, hy, hsy⟩⟩ := mayRound_sound hsym h0 hp hR hs hx hi h1
    · dsimp only at h2
      rw [if_pos rfl] at h2
      cases h2
      exact ⟨.stop he, hti⟩
    · dsimp only at h2
      rw [if_neg (by simp)] at h2
      obtain ⟨h3, h4⟩ := mayLoop_sound hs F hsy hti h2
      exact ⟨.next hy h3, h4⟩

/-- … in both directions. -/
theorem mayLoop_complete (hs : Spec.Symmetric adj) {F : Nat} {x : Search (Fin k)} {L : Labels k}
    (h : MayRunN adj (fun L => (pairwise metric).call L attr) may len reps F x L) :
    ∀ {s : TabuState σ k}, Shows len x s.plain → TabuInv adj P init s →
    ∃ s' : TabuState σ k, s'.labels = L ∧ P s'.strat ∧ ∀ r', ∃ r0,
      basicLoop ops (pairwise metric) attr adj reps F { s with rng := r0 } = .ok { s' with rng := r' } := by
  induction h with
  | stop h =>
    intro s hx hi
    obtain ⟨s', h1, h2, h3⟩ := mayRound_end hsym h0 hp hR hs hx hi h
    refine ⟨s', h1, h2, fun r' => ?_⟩
    obtain ⟨r0, h3⟩ := h3 r'
    refine ⟨r0, ?_⟩
    unfold basicLoop
    rw [h3, Res.bind_ok]
    dsimp only
    rw [if_pos rfl]
  | next h _ ih =>
    intro s hx hi
    obtain ⟨t, h1, h2, h3⟩ := mayRound_next hsym h0 hp hR hs hx hi h
    obtain ⟨s', g1, g2, g3⟩ := ih h1 h2
    refine ⟨s', g1, g2, fun r' => ?_⟩
    obtain ⟨r1, g3⟩ := g3 r'
    obtain ⟨r0, h3⟩ := h3 r1
    refine ⟨r0, ?_⟩
    unfold basicLoop
    rw [h3, Res.bind_ok]
    dsimp only
    rw [if_neg (by simp), g3]

end

/-! ### A single region -/

theorem single_may {V : Type} [LT V] [DecidableEq V] {adj : V → V → Bool} {value : (V → Int) → ℚ}
    {may : (V → Int) → V → Int → Prop} {init L : V → Int} (h1 : ∀ a b, init a = init b) :
    MayResult adj value may len reps init L ↔ L = init := by
  classical
  constructor
  · have : ∀ x : Search V, MayRun adj value may len reps x L → (∀ a b, x.labels a = x.labels b) → x.barred = [] →
        L = x.labels := by
      intro x hx
      induction hx with
      | @stop x L hend =>
        intro g1 hb
        obtain ⟨hst, hbest, hasp⟩ := single_round (adj := adj) (value := value) (len := len) (reps := reps) g1 hb
        obtain ⟨-, -, z, ⟨rfl, -⟩ | ⟨m, hm, -⟩, rfl⟩ := hend
        · rfl
        · exact absurd hm (hasp m)
      | @next x y L hround _ ih =>
        intro g1 hb
        obtain ⟨hst, hbest, hasp⟩ := single_round (adj := adj) (value := value) (len := len) (reps := reps) g1 hb
        rcases hround with ⟨m, hm, -⟩ | ⟨-, -, z, ⟨rfl, -⟩ | ⟨m, hm, -⟩, ⟨m', hm', -⟩ | ⟨-, rfl⟩⟩
        · exact absurd hm (hbest m)
        · exact absurd hm' (hbest m')
        · exact ih g1 hb
        · exact absurd hm (hasp m)
        · exact absurd hm (hasp m)
    exact fun hrun => this _ hrun h1 rfl
  · rintro rfl
    have : ∀ (d : Nat) (x : Search V), x.labels = L → x.barred = [] → reps ≤ (x.seen.count L : Int) + d →
        MayRun adj value may len reps x L := by
      intro d
      induction d with
      | zero =>
        rintro x rfl hb hd
        obtain ⟨hst, hbest, hasp⟩ := single_round (adj := adj) (value := value) (len := len) (reps := reps) h1 hb
        refine .stop ⟨fun m hm => absurd hm (hbest m), .inr ?_, _, .inl ⟨rfl, hasp⟩, rfl⟩
        simpa using hd
      | succ d ih =>
        rintro x rfl hb hd
        obtain ⟨hst, hbest, hasp⟩ := single_round (adj := adj) (value := value) (len := len) (reps := reps) h1 hb
        by_cases hdue : (noted reps x).due
        · exact .stop ⟨fun m hm => absurd hm (hbest m), hdue, _, .inl ⟨rfl, hasp⟩, rfl⟩
        · refine .next (.inr ⟨fun m hm => absurd hm (hbest m), hdue, _, .inl ⟨rfl, hasp⟩,
            .inr ⟨fun m hm => absurd hm (hbest m), rfl⟩⟩) (ih (noted reps x) rfl hb ?_)
          change _ ≤ ((List.count x.labels (x.seen ++ [x.labels]) : Nat) : Int) + _
          rw [List.count_append, List.count_singleton_self]
          push_cast at hd ⊢
          omega
    refine this reps.toNat _ rfl rfl ?_
    dsimp only
    rw [List.count_nil]
    omega

/-- What `_azp_connected_component` can return with some fuel. -/
def MayOutN (adj : Adj k) (value : Labels k → ℚ) (may : Labels k → Fin k → Int → Prop) (len : Option Nat)
    (reps : Int) (F : Nat) (init out : Labels k) : Prop :=
  ((∀ a b, init a = init b) ∧ out = init) ∨
    (¬ (∀ a b, init a = init b) ∧ MayRunN adj value may len reps F ⟨init, [], [], False⟩ out)

theorem mayOutN_mono {value : Labels k → ℚ} {F F' : Nat} (hF : F ≤ F') {out : Labels k}
    (h : MayOutN adj value may len reps F init out) : MayOutN adj value may len reps F' init out :=
  h.imp_right fun h => ⟨h.1, mayRunN_mono hF h.2⟩

theorem mayOutN_iff {value : Labels k → ℚ} {out : Labels k} :
    (∃ F, MayOutN adj value may len reps F init out) ↔ MayResult adj value may len reps init out := by
  by_cases h1 : ∀ a b, init a = init b
  · rw [single_may h1]
    constructor
    · rintro ⟨F, ⟨-, h⟩ | ⟨h, -⟩⟩
      · exact h
      · exact absurd h1 h
    · exact fun h => ⟨0, .inl ⟨h1, h⟩⟩
  · unfold MayResult
    rw [mayRun_iff]
    constructor
    · rintro ⟨F, ⟨h, -⟩ | ⟨-, h⟩⟩
      · exact absurd h h1
      · exact ⟨F, h⟩
    · exact fun ⟨F, h⟩ => ⟨F, .inr ⟨h1, h⟩⟩

theorem shows_begin (st : σ) (rng : Rng) : Shows len ⟨init, [], [], False⟩
    (TabuState.plain { labels := init, tabu := ⟨[], len⟩, visited := [], stop := false, strat := st, rng := rng }) := by
  refine ⟨rfl, rfl, ?_, rfl, by simp [TabuState.plain], 0, rfl⟩
  cases len <;> simp [latest, TabuState.plain]

/-- One component. -/
theorem mayComponent_sound (hd : Dissimilarity metric) (hR : Rules adj metric attr ops P may)
    (hs : Spec.Symmetric adj) (hk : 0 < k)
    (hc : AllContiguous adj init) {F : Nat} {st : σ} (hst : P st) {rng : Rng} {out : Labels k} {st' : σ} {rng' : Rng}
    (h : basicComponent ops (pairwise metric) attr adj len reps F init st rng = .ok (out, st', rng')) :
    MayOutN adj (fun L => (pairwise metric).call L attr) may len reps F init out ∧ P st' := by
  unfold basicComponent at h
  by_cases h1 : (uniqueSorted (arrayList init)).length = 1
  · rw [if_pos h1] at h
    cases h
    exact ⟨.inl ⟨(uniqueSorted_one hk).1 h1, rfl⟩, hst⟩
  · rw [if_neg h1, Res.bind_eq_ok] at h
    obtain ⟨s, h2, h3⟩ := h
    cases h3
    obtain ⟨h4, h5⟩ := mayLoop_sound hd.symm hd.zero hd.nonneg hR hs F (shows_begin st rng)
      ⟨hc, fun x => Iff.rfl, by simp, hst⟩ h2
    exact ⟨.inr ⟨fun h => h1 ((uniqueSorted_one hk).2 h), h4⟩, h5.strat⟩

theorem mayComponent_complete (hd : Dissimilarity metric) (hR : Rules adj metric attr ops P may)
    (hs : Spec.Symmetric adj) (hk : 0 < k)
    (hc : AllContiguous adj init) {F : Nat} {st : σ} (hst : P st) {out : Labels k}
    (h : MayOutN adj (fun L => (pairwise metric).call L attr) may len reps F init out) :
    ∃ st', P st' ∧ ∀ r', ∃ r0,
      basicComponent ops (pairwise metric) attr adj len reps F init st r0 = .ok (out, st', r') := by
  rcases h with ⟨h1, rfl⟩ | ⟨h1, h⟩
  · refine ⟨st, hst, fun r' => ⟨r', ?_⟩⟩
    unfold basicComponent
    rw [if_pos ((uniqueSorted_one hk).2 h1)]
  · obtain ⟨s', rfl, hst', h2⟩ := mayLoop_complete hd.symm hd.zero
      hd.nonneg hR hs (init := init) h (shows_begin st fun _ => 0) ⟨hc, fun x => Iff.rfl, by simp, hst⟩
    refine ⟨s'.strat, hst', fun r' => ?_⟩
    obtain ⟨r0, h2⟩ := h2 r'
    refine ⟨r0, ?_⟩
    unfold basicComponent
    rw [if_neg fun h => h1 ((uniqueSorted_one hk).1 h), h2, Res.bind_ok]

end

end Region
