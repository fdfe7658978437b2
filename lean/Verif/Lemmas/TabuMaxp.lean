import Verif.Lemmas.TabuMay
/-
The basic tabu search as local search of the max-p heuristic: the rule, the numbering of the areas, whole maps.
-/
namespace Region

open Spec Props

section
variable {n q k : Nat} {ρ : Type} {expf : ℚ → ℚ} {idx : Fin k → Fin n} {attr : Fin k → ρ}
  {spat : Fin n → Fin q → ℚ} {thr : Fin q → ℚ} {metric : ρ → ρ → ℚ}

/-- What the Max-p decorators permit. -/
def SpareMove (metric : ρ → ρ → ℚ) (attr : Fin k → ρ) (sp : Fin k → Fin q → ℚ) (thr : Fin q → ℚ) (L : Labels k)
    (a : Fin k) (r : Int) : Prop :=
  Dispensable sp thr L a ∧ (pairwise metric).call (moved L a r) attr ≤ (pairwise metric).call L attr

theorem decorated_call (hsym : ∀ x y, metric x y = metric y x) (h0 : ∀ x, metric x x = 0) {L : Labels k}
    {a : Fin k} {r : Int} {d : ℚ} (hd : (pairwise metric).update a r L attr = some d) : ∀ {st : Strat n q},
    st.Decorated spat thr →
    ∃ b st', (∀ rng, Strat.call expf idx attr (pairwise metric) st a r L rng = .ok (b, st', rng)) ∧
      (b = true ↔ (st.isMaxp = true → Dispensable (fun i => spat (idx i)) thr L a) ∧
        (pairwise metric).call (moved L a r) attr ≤ (pairwise metric).call L attr) ∧
      st'.Decorated spat thr ∧ st'.isMaxp = st.isMaxp := by
  intro st
  have hv := (pairwise_value hsym h0 hd).1
  induction st with
  | sa => intro h; exact h.elim
  | azp x =>
    intro h
    by_cases hle : d ≤ 0
    · refine ⟨true, .azp (x + d), fun rng => ?_, by simp [Strat.isMaxp, hv.1 hle], trivial, rfl⟩
      unfold Strat.call
      rw [hd]
      dsimp only
      rw [if_pos hle]
    · refine ⟨false, .azp x, fun rng => ?_, by simp [mt hv.2 hle], trivial, rfl⟩
      unfold Strat.call
      rw [hd]
      dsimp only
      rw [if_neg hle]
  | maxp s t x inner ih =>
    rintro ⟨rfl, rfl, h⟩
    by_cases hb : Dispensable (fun i => s (idx i)) t L a
    · obtain ⟨b, st', h1, h2, h3, _⟩ := ih h
      refine ⟨b, .maxp s t x st', fun rng => ?_, ?_, ⟨rfl, rfl, h3⟩, rfl⟩
      · unfold Strat.call
        rw [maxpBlocks_iff.2 hb, if_neg (by simp), h1 rng]
      · rw [h2]
        simp [hb]
    · refine ⟨false, .maxp s t x inner, fun rng => ?_, by simp [Strat.isMaxp, hb], ⟨rfl, rfl, h⟩, rfl⟩
      rw [← maxpBlocks_iff, Bool.not_eq_false] at hb
      unfold Strat.call
      rw [if_pos hb]

/-- The default strategy inside at least one decorator follows the rule. -/
theorem decorated_rules (hsym : ∀ x y, metric x y = metric y x) (h0 : ∀ x, metric x x = 0) (adj : Adj k)
    (hpos : ∀ i j, 0 ≤ spat i j) :
    Rules adj metric attr (Strat.ops expf idx attr (pairwise metric))
      (fun st => st.Decorated spat thr ∧ st.isMaxp = true)
      (SpareMove metric attr (fun i => spat (idx i)) thr) := by
  constructor
  · rintro st a r L d ⟨hst, hx⟩ hd
    obtain ⟨b, st', h1, h2, h3, h4⟩ := decorated_call (expf := expf) (idx := idx) hsym h0 hd hst
    refine ⟨b, st', h1, ?_, h3, h4.trans hx⟩
    rw [h2, hx]
    simp [SpareMove]
  · exact fun h => h.2
  · intro a r L L' hadm hle hno hyes
    have hnd : ¬ Dispensable (fun i => spat (idx i)) thr L a := fun h => hno ⟨h, hle⟩
    unfold Dispensable at hnd
    push Not at hnd
    obtain ⟨hnz, j, hj⟩ := hnd
    have hthr : 0 < thr j := lt_of_le_of_lt (finsum_nonneg fun u => finsum_nonneg fun _ => hpos _ _) hj
    rcases hyes.1 with h | h
    · obtain ⟨j', hj'⟩ := hnz
      exact absurd (h j') hj'
    · by_contra hcon
      push Not at hcon
      have := h j
      have hz : (∑ᶠ (u : Fin k) (_ : L' u = L' a ∧ u ≠ a), spat (idx u) j) = 0 := by
        refine finsum_eq_zero_of_forall_eq_zero fun u => ?_
        have : ¬ (L' u = L' a ∧ u ≠ a) := fun hu => hcon u hu.2 hu.1
        rw [finsum_eq_if, if_neg this]
      rw [hz] at this
      exact absurd this (not_le.2 hthr)

end

/-! ### The numbering of the areas does not matter as long as their order is kept -/

section Renumber
variable {V W : Type} [LT V] [LT W] [DecidableEq V] [DecidableEq W]
variable (e : V ≃ W) (he : ∀ a b, e a < e b ↔ a < b) {adj : W → W → Bool} {value : (W → Int) → ℚ}
  {value' : (V → Int) → ℚ} (hv : ∀ L L' : W → Int, value' (L ∘ e) < value' (L' ∘ e) ↔ value L < value L')
  {may : (W → Int) → W → Int → Prop} {may' : (V → Int) → V → Int → Prop}
  (hmay : ∀ L a r, may' (L ∘ e) (e.symm a) r ↔ may L a r)
  {len : Option Nat} {reps : Int} {x y z : Search W} {m m' : Shift W}

include he hv hmay

theorem halted_pull (h : Halted adj value may len x) :
    Halted (fun a b => adj (e a) (e b)) value' may' len (Search.pull e x) := by
  intro m' hm'
  rw [← Shift.pull_symm e m', best_pull e he hv] at hm'
  refine (h _ hm').imp (fun h => ?_) (fun h h' => h ((hmay _ _ _).1 ?_))
  · rw [← hv, ← moved_pull] at h
    simpa [Shift.pull, Search.pull] using h
  · simpa [Shift.pull, Search.pull] using h'

omit he [LT V] [LT W] in
theorem mayAspire_pull (h : MayAspire adj value may len x y) :
    MayAspire (fun a b => adj (e a) (e b)) value' may' len (Search.pull e x) (Search.pull e y) := by
  rcases h with ⟨rfl, h⟩ | ⟨m, hm, h1, h2⟩
  · refine .inl ⟨rfl, fun m' hm' => ?_⟩
    rw [← Shift.pull_symm e m', aspirant_pull e hv] at hm'
    exact h _ hm'
  · refine .inr ⟨Shift.pull e m, (aspirant_pull e hv).2 hm, fun h => sent_pull e (h1 ((hmay _ _ _).1 h)), fun h => ?_⟩
    rw [h2 fun h' => h ((hmay _ _ _).2 h')]

theorem mayRetry_pull (h : MayRetry adj value may len x y z) :
    MayRetry (fun a b => adj (e a) (e b)) value' may' len (Search.pull e x) (Search.pull e y) (Search.pull e z) := by
  rcases h with ⟨m, hm, hok, h⟩ | ⟨h, rfl⟩
  · exact .inl ⟨Shift.pull e m, (best_pull e he hv).2 hm, (hmay _ _ _).2 hok, sent_pull e h⟩
  · refine .inr ⟨fun m' hm' h' => ?_, rfl⟩
    rw [← Shift.pull_symm e m', best_pull e he hv] at hm'
    refine h _ hm' ((hmay _ _ _).1 ?_)
    simpa [Shift.pull, Search.pull] using h'

theorem mayRound_pull (h : MayRound adj value may len reps x y) :
    MayRound (fun a b => adj (e a) (e b)) value' may' len reps (Search.pull e x) (Search.pull e y) := by
  unfold MayRound
  rw [← noted_pull]
  rcases h with ⟨m, hm, hle, hok, h⟩ | ⟨hst, hd, z, hz, hy⟩
  · refine .inl ⟨Shift.pull e m, (best_pull e he hv).2 hm, ?_, (hmay _ _ _).2 hok, sent_pull e h⟩
    change value' (moved ((noted reps x).labels ∘ e) (e.symm m.area) m.new) ≤ value' ((noted reps x).labels ∘ e)
    rwa [moved_pull, pull_le e hv]
  · exact .inr ⟨halted_pull e he hv hmay hst, hd, Search.pull e z, mayAspire_pull e hv hmay hz,
      mayRetry_pull e he hv hmay hy⟩

theorem mayRun_pull {L : W → Int} (h : MayRun adj value may len reps x L) :
    MayRun (fun a b => adj (e a) (e b)) value' may' len reps (Search.pull e x) (L ∘ e) := by
  induction h with
  | @stop x L h =>
    obtain ⟨hst, hd, z, hz, rfl⟩ := h
    refine .stop ?_
    unfold MayEnd
    rw [← noted_pull]
    exact ⟨halted_pull e he hv hmay hst, hd, Search.pull e z, mayAspire_pull e hv hmay hz, rfl⟩
  | next h _ ih => exact .next (mayRound_pull e he hv hmay h) ih

theorem mayResult_comp (init L : W → Int) :
    MayResult (fun a b => adj (e a) (e b)) value' may' len reps (init ∘ e) (L ∘ e) ↔
      MayResult adj value may len reps init L := by
  have hce : ∀ L : V → Int, (L ∘ e.symm) ∘ e = L := fun L => by funext v; simp
  have hec : ∀ L : W → Int, (L ∘ e) ∘ e.symm = L := fun L => by funext v; simp
  refine ⟨fun h => ?_, fun h => mayRun_pull e he hv hmay h⟩
  have := mayRun_pull e.symm (value' := value) (may' := may) (fun a b => by rw [← he]; simp)
    (fun L L' => by rw [← hv, hce, hce]) (fun L a r => by rw [← hmay, hce]; simp) h
  rw [hec] at this
  have h0 : Search.pull e.symm ⟨init ∘ e, [], [], False⟩ = (⟨init, [], [], False⟩ : Search W) := by
    unfold Search.pull
    rw [show (⟨init ∘ e, [], [], False⟩ : Search V).labels = init ∘ e from rfl, hec]
    rfl
  rw [h0] at this
  simp only [Equiv.apply_symm_apply] at this
  exact this

end Renumber

/-! ### When the best move is refused at the start -/

theorem best_congr {V : Type} [LT V] [DecidableEq V] {adj : V → V → Bool} {value value' : (V → Int) → ℚ}
    {len : Option Nat} {x : Search V} {m : Shift V} (hv : ∀ L L', value' L < value' L' ↔ value L < value L')
    (h : Best adj value' len x m) : Best adj value len x m := by
  refine ⟨h.1, fun m' hm' => (h.2 m' hm').imp_right (Or.imp (hv _ _).1 (And.imp_left fun he => ?_))⟩
  refine le_antisymm (not_lt.1 fun hlt => ?_) (not_lt.1 fun hlt => ?_)
  · exact absurd ((hv _ _).2 hlt) (by rw [he]; exact lt_irrefl _)
  · exact absurd ((hv _ _).2 hlt) (by rw [he]; exact lt_irrefl _)

theorem may_stays {V : Type} [LT V] [DecidableEq V] {adj : V → V → Bool} {value : (V → Int) → ℚ}
    {may : (V → Int) → V → Int → Prop} {len : Option Nat} {reps : Int} {init L : V → Int}
    (hle : ∀ {L a r}, may L a r → value (moved L a r) ≤ value L)
    (h : Halted adj value may len ⟨init, [], [], False⟩) :
    MayResult adj value may len reps init L ↔ L = init := by
  classical
  have hasp : ∀ x : Search V, x.barred = [] → ∀ m, ¬ Aspirant value len x m := by
    intro x hb m hm
    have := forbidden_iff.1 hm.1
    rw [hb] at this
    cases len with
    | none => cases this
    | some l => simp [latest] at this
  have hx : ∀ x : Search V, x.labels = init → x.barred = [] → Halted adj value may len x ∧
      ∀ m, Best adj value len x m → ¬ may x.labels m.area m.new := by
    rintro x rfl hb
    have hB : ∀ m, Best adj value len x m → Best adj value len ⟨x.labels, [], [], False⟩ m := by
      intro m hm
      have : x = ⟨x.labels, [], x.seen, x.due⟩ := by cases x; simp_all
      rw [this] at hm
      exact hm
    refine ⟨fun m hm => h m (hB m hm), fun m hm hmay => ?_⟩
    rcases h m (hB m hm) with h1 | h1
    · exact absurd (hle hmay) (not_le.2 h1)
    · exact h1 hmay
  constructor
  · have : ∀ x : Search V, MayRun adj value may len reps x L → x.labels = init → x.barred = [] → L = init := by
      intro x hrun
      induction hrun with
      | @stop x L hend =>
        intro h1 h2
        obtain ⟨-, -, z, ⟨rfl, -⟩ | ⟨m, hm, -⟩, rfl⟩ := hend
        · exact h1
        · exact absurd hm (hasp _ h2 m)
      | @next x y L hround _ ih =>
        intro h1 h2
        obtain ⟨-, hno⟩ := hx (noted reps x) h1 h2
        rcases hround with ⟨m, hm, -, hmay, -⟩ | ⟨-, -, z, ⟨rfl, -⟩ | ⟨m, hm, -⟩, hre⟩
        · exact absurd hmay (hno m hm)
        · rcases hre with ⟨m', hm', hmay, -⟩ | ⟨-, rfl⟩
          · exact absurd hmay (hno m' hm')
          · exact ih h1 h2
        · exact absurd hm (hasp _ h2 m)
    exact fun hrun => this _ hrun rfl rfl
  · rintro rfl
    have : ∀ (d : Nat) (x : Search V), x.labels = L → x.barred = [] → reps ≤ (x.seen.count L : Int) + d →
        MayRun adj value may len reps x L := by
      intro d
      induction d with
      | zero =>
        rintro x hl hb hd
        obtain ⟨hst, hno⟩ := hx (noted reps x) hl hb
        refine .stop ⟨hst, .inr ?_, _, .inl ⟨rfl, hasp _ hb⟩, hl.symm⟩
        rw [hl]
        simpa using hd
      | succ d ih =>
        rintro x hl hb hd
        obtain ⟨hst, hno⟩ := hx (noted reps x) hl hb
        by_cases hdue : (noted reps x).due
        · exact .stop ⟨hst, hdue, _, .inl ⟨rfl, hasp _ hb⟩, hl.symm⟩
        · refine .next (.inr ⟨hst, hdue, _, .inl ⟨rfl, hasp _ hb⟩, .inr ⟨hno, rfl⟩⟩) (ih (noted reps x) hl hb ?_)
          change _ ≤ ((List.count L (x.seen ++ [x.labels]) : Nat) : Int) + _
          rw [hl, List.count_append, List.count_singleton_self]
          push_cast at hd ⊢
          omega
    refine this reps.toNat _ rfl rfl ?_
    dsimp only
    rw [List.count_nil]
    omega

end Region
