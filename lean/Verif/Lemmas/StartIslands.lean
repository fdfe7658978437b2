import Verif.Lemmas.AnnealScratch
import Verif.Lemmas.Reads
/-
`fit` without initial labels on any map: the start of an island is made just before the island is treated, but
another tape gives the same result with all starts made at the beginning.
-/
namespace Region

open Spec Relation Props

/-- A run can be repeated with any rest of the tape. -/
theorem Reads.replay {α : Type} {f : Rng → Res (α × Rng)} (h : Reads mk1 f) {rng rng' : Rng} {a : α}
    (hrun : f rng = .ok (a, rng')) (r' : Rng) : ∃ r0, f r0 = .ok (a, r') := by
  obtain ⟨k, out, hk⟩ := h rng
  have h1 := hk rng fun _ _ => rfl
  rw [hrun] at h1
  obtain ⟨b, rfl, h2⟩ := Res.bind_eq_ok.1 h1.symm
  cases h2
  refine ⟨fun i => if i < k then rng i else r' (i - k), ?_⟩
  rw [hk _ fun i hi => if_pos hi, Res.bind_ok]
  congr 2
  funext i
  simp [Rng.drop]

theorem Reads.replay2 {α β : Type} {f : Rng → Res (α × β × Rng)} (h : Reads mk2 f) {rng rng' : Rng} {a : α}
    {b : β} (hrun : f rng = .ok (a, b, rng')) (r' : Rng) : ∃ r0, f r0 = .ok (a, b, r') := by
  obtain ⟨k, out, hk⟩ := h rng
  have h1 := hk rng fun _ _ => rfl
  rw [hrun] at h1
  obtain ⟨c, rfl, h2⟩ := Res.bind_eq_ok.1 h1.symm
  cases h2
  refine ⟨fun i => if i < k then rng i else r' (i - k), ?_⟩
  rw [hk _ fun i hi => if_pos hi, Res.bind_ok]
  congr 3
  funext i
  simp [Rng.drop]

section
variable {σ ρ : Type} {n : Nat} {adj : Adj n} {attr : Fin n → ρ} {comp : CompFn σ n ρ}

/-- A run with lazily made starts can be repeated with the starts made beforehand. -/
theorem fitLoop_forced
    (hread : ∀ idx a init at' st, Reads mk2 (comp idx a init at' st)) :
    ∀ {gen : Gen n} {L L' : Labels n} {st st' : σ} {rng rng' : Rng},
    fitLoop adj attr comp gen L st rng = .ok (L', st', rng') →
    ∃ ys, List.Forall₂ Yields gen ys ∧ ∀ r', ∃ r0,
      fitLoop adj attr comp (ys.map fun y r => .ok (.array y, r)) L st r0 = .ok (L', st', r') := by
  intro gen
  induction gen with
  | nil => intro L L' st st' rng rng' h; cases h; exact ⟨[], .nil, fun r' => ⟨r', rfl⟩⟩
  | cons s gen ih =>
    intro L L' st st' rng rng' h
    unfold fitLoop at h
    rw [Res.bind_eq_ok] at h
    obtain ⟨⟨y, rng1⟩, h0, h⟩ := h
    cases y with
    | dict => cases h
    | array y =>
      dsimp only at h
      rw [Res.bind_eq_ok] at h
      obtain ⟨⟨L1, st1, rng2⟩, h1, h2⟩ := h
      obtain ⟨ys, g1, g2⟩ := ih h2
      refine ⟨y :: ys, .cons ⟨_, _, h0⟩ g1, fun r' => ?_⟩
      obtain ⟨r1, g2⟩ := g2 r'
      obtain ⟨r0, g3⟩ := (fitStep_reads adj attr hread y L st).replay2 h1 r1
      refine ⟨r0, ?_⟩
      rw [List.map_cons]
      unfold fitLoop
      rw [Res.bind_ok]
      dsimp only
      rw [g3, Res.bind_ok]
      exact g2

/-- A run with the starts made beforehand can be repeated with lazily made ones. -/
theorem fitLoop_lazy (hread : ∀ idx a init at' st, Reads mk2 (comp idx a init at' st)) :
    ∀ {ys : List (Labels n)} {gen : Gen n}, List.Forall₂ CanYield gen ys →
    ∀ {L L' : Labels n} {st st' : σ} {rng rng' : Rng},
    fitLoop adj attr comp (ys.map fun y r => .ok (.array y, r)) L st rng = .ok (L', st', rng') →
    ∀ r', ∃ r0, fitLoop adj attr comp gen L st r0 = .ok (L', st', r') := by
  intro ys
  induction ys with
  | nil => intro gen hg L L' st st' rng rng' h r'; cases hg; cases h; exact ⟨r', rfl⟩
  | cons y ys ih =>
    intro gen hg L L' st st' rng rng' h r'
    cases hg with
    | @cons s _ gen _ hs hg =>
      rw [List.map_cons] at h
      unfold fitLoop at h
      rw [Res.bind_ok] at h
      dsimp only at h
      rw [Res.bind_eq_ok] at h
      obtain ⟨⟨L1, st1, rng2⟩, h1, h2⟩ := h
      obtain ⟨r1, g2⟩ := ih hg h2 r'
      obtain ⟨r2, g3⟩ := (fitStep_reads adj attr hread y L st).replay2 h1 r1
      obtain ⟨r0, g4⟩ := hs r2
      refine ⟨r0, ?_⟩
      unfold fitLoop
      rw [g4, Res.bind_ok]
      dsimp only
      rw [g3, Res.bind_ok]
      exact g2

/-- What `fit` gives without initial labels it can give with those of a cut of the spanning forest. -/
theorem fitWith_forced {o : MstOrder} (hread : ∀ idx a init at' st, Reads mk2 (comp idx a init at' st))
    {p : Nat} (hn : 0 < n) (hp : p ≤ n) (hp1 : p ≠ 1) (hc : nComponents adj ≤ p)
    {st st' : σ} {rng rng' : Rng} {L : Labels n}
    (h : fitWith o adj attr comp p none st rng = .ok (L, st', rng')) :
    ∃ init, CutFrom adj (forestOf o adj) p init ∧ ∀ r', ∃ r0,
      fitWith o adj attr comp p (some init) st r0 = .ok (L, st', r') := by
  unfold fitWith at h
  dsimp only at h
  rw [Res.bind_eq_ok] at h
  obtain ⟨⟨gen, r1⟩, h1, h2⟩ := h
  obtain ⟨gen', r1', g1, -, g3⟩ := generateInitialSol_spec o adj p rng hn (by exact_mod_cast hp) (by exact_mod_cast hp1) (by exact_mod_cast hc)
  rw [g1] at h1
  cases h1
  obtain ⟨ys, hys, hf⟩ := fitLoop_forced hread h2
  obtain ⟨K, hK, hcard, e1⟩ := generateInitialSol_sound hn (by exact_mod_cast hp) (by exact_mod_cast hp1) (by exact_mod_cast hc) g1 hys
  obtain ⟨lab, e4, e5, e6, e7⟩ := g3 ys hys
  have hcut : CutFrom adj (forestOf o adj) p (cutLabels o adj K) := cutFrom_iff.2 ⟨K, hK, hcard, rfl⟩
  refine ⟨_, hcut, fun r' => ?_⟩
  obtain ⟨r0, hr0⟩ := hf r'
  refine ⟨r0, ?_⟩
  unfold fitWith
  dsimp only
  have hstart := cutFrom_startable hcut
  rw [(c04_assert_feasible_ok _ adj (some (p : Int))).2 ⟨hstart.contiguous, by
      rintro _ ⟨⟩
      exact_mod_cast hstart.number⟩,
    Res.bind_ok, ← e1]
  exact hr0

/-- What `fit` gives with the labels of a cut of the spanning forest it can give without initial labels. -/
theorem fitWith_lazy {o : MstOrder} (hread : ∀ idx a init at' st, Reads mk2 (comp idx a init at' st))
    {p : Nat} (hn : 0 < n) (hp : p ≤ n) (hp1 : p ≠ 1) (hc : nComponents adj ≤ p)
    {init : Labels n} (hi : CutFrom adj (forestOf o adj) p init)
    {st st' : σ} {rng rng' : Rng} {L : Labels n}
    (h : fitWith o adj attr comp p (some init) st rng = .ok (L, st', rng')) (r' : Rng) :
    ∃ r0, fitWith o adj attr comp p none st r0 = .ok (L, st', r') := by
  obtain ⟨K, hK, hcard, rfl⟩ := cutFrom_iff.1 hi
  obtain ⟨gen, h1, h2⟩ := generateInitialSol_complete hn (by exact_mod_cast hp) (by exact_mod_cast hp1) (by exact_mod_cast hc) hK hcard
  unfold fitWith at h
  dsimp only at h
  rw [Res.bind_eq_ok] at h
  obtain ⟨-, -, h⟩ := h
  obtain ⟨r1, g1⟩ := fitLoop_lazy hread h2 h r'
  obtain ⟨r0, g2⟩ := h1 r1
  refine ⟨r0, ?_⟩
  unfold fitWith
  dsimp only
  rw [g2, Res.bind_ok]
  exact g1

/-- Without initial labels `fit` can give exactly what it can give with those of a cut. -/
theorem fitWith_none_iff {o : MstOrder} (hread : ∀ idx a init at' st, Reads mk2 (comp idx a init at' st))
    {p : Nat} (hp2 : 2 ≤ p) (hp : p ≤ n) (hc : nComponents adj ≤ p) {st st' : σ} {L : Labels n} :
    (∃ rng rng', fitWith o adj attr comp p none st rng = .ok (L, st', rng')) ↔
      ∃ init, CutFrom adj (forestOf o adj) p init ∧
        ∃ rng rng', fitWith o adj attr comp p (some init) st rng = .ok (L, st', rng') := by
  constructor
  · rintro ⟨rng, rng', h⟩
    obtain ⟨init, h1, h2⟩ := fitWith_forced hread (by omega) hp (by omega) hc h
    obtain ⟨r0, h2⟩ := h2 rng'
    exact ⟨init, h1, r0, _, h2⟩
  · rintro ⟨init, hi, rng, rng', h⟩
    obtain ⟨r0, h1⟩ := fitWith_lazy hread (by omega) hp (by omega) hc hi h rng'
    exact ⟨r0, _, h1⟩

end

section
variable {n q : Nat} {ρ : Type} {o : MstOrder} {expf : ℚ → ℚ} {obj : Objective ρ} {fuel : Nat} {adj : Adj n}
  {attr : Fin n → ρ} {p : Nat} (hp2 : 2 ≤ p) (hp : p ≤ n) (hc : nComponents adj ≤ p) {st : Strat n q}
include hp2 hp hc

/-- A run without initial labels can be repeated with those of a cut. -/
theorem azpFit_none_start {rng : Rng} {out : Labels n × Strat n q × Rng}
    (h : azpFit o expf obj fuel adj attr p none st rng = .ok out) :
    ∃ init rng1, CutFrom adj (forestOf o adj) p init ∧ Startable adj p init ∧
      azpFit o expf obj fuel adj attr p (some init) st rng1 = .ok out := by
  obtain ⟨L, st', rng'⟩ := out
  obtain ⟨init, h1, h2⟩ := fitWith_forced (fun _ a init _ _ =>
    azpComponent_reads (strat_ops_reads expf _ _ obj) a fuel init _) (by omega) hp (by omega) hc h
  obtain ⟨r0, h2⟩ := h2 rng'
  exact ⟨init, r0, h1, cutFrom_startable h1, h2⟩

theorem azpFit_start_none {init : Labels n} (hi : CutFrom adj (forestOf o adj) p init) {rng : Rng}
    {out : Labels n × Strat n q × Rng} (h : azpFit o expf obj fuel adj attr p (some init) st rng = .ok out) :
    ∃ r0, azpFit o expf obj fuel adj attr p none st r0 = .ok out := by
  obtain ⟨L, st', rng'⟩ := out
  exact fitWith_lazy (fun _ a init _ _ =>
    azpComponent_reads (strat_ops_reads expf _ _ obj) a fuel init _) (by omega) hp (by omega) hc hi h rng'

end

end Region
