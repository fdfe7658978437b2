import Verif.Lemmas.TabuExact
import Verif.Lemmas.IslandMaps
import Verif.Lemmas.AnnealIslands
import Verif.Props.AzpTabu
/-
The basic tabu search with all its possible results: whole maps.
-/
namespace Region

open Spec Props

/-! ### The numbering of the areas does not matter as long as their order is kept -/

section Renumber
variable {V W : Type} [LT V] [LT W] [DecidableEq V] [DecidableEq W]

/-- A move, a search with other names for the areas. -/
def Shift.pull (e : V ≃ W) (m : Shift W) : Shift V := ⟨e.symm m.area, m.old, m.new⟩

def Search.pull (e : V ≃ W) (x : Search W) : Search V :=
  ⟨x.labels ∘ e, x.barred.map (Shift.pull e), x.seen.map (· ∘ e), x.due⟩

omit [LT V] [LT W] [DecidableEq V] [DecidableEq W] in
theorem Shift.pull_symm (e : V ≃ W) (m : Shift V) : Shift.pull e (Shift.pull e.symm m) = m := by
  cases m; simp [Shift.pull]

omit [LT V] [LT W] [DecidableEq V] [DecidableEq W] in
theorem Shift.symm_pull (e : V ≃ W) (m : Shift W) : Shift.pull e.symm (Shift.pull e m) = m := by
  cases m; simp [Shift.pull]

omit [LT V] [LT W] [DecidableEq V] [DecidableEq W] in
theorem Shift.pull_inj (e : V ≃ W) : Function.Injective (Shift.pull e) :=
  Function.LeftInverse.injective (Shift.symm_pull e)

variable (e : V ≃ W) (he : ∀ a b, e a < e b ↔ a < b) {adj : W → W → Bool} {value : (W → Int) → ℚ}
  {value' : (V → Int) → ℚ} (hv : ∀ L L' : W → Int, value' (L ∘ e) < value' (L' ∘ e) ↔ value L < value L')
  {len : Option Nat} {reps : Int} {x y z : Search W} {m m' : Shift W}

omit [LT V] [LT W] [DecidableEq V] [DecidableEq W] in
theorem forbidden_pull : Forbidden len (Search.pull e x) (Shift.pull e m) ↔ Forbidden len x m := by
  rw [forbidden_iff, forbidden_iff]
  have : latest len (x.barred.map (Shift.pull e)) = (latest len x.barred).map (Shift.pull e) := by
    cases len with
    | none => rfl
    | some l => unfold latest; dsimp only; rw [List.length_map, List.map_drop]
  change _ ∈ latest len (x.barred.map (Shift.pull e)) ↔ _
  rw [this, List.mem_map_of_injective (Shift.pull_inj e)]

omit [LT V] [LT W] [DecidableEq V] [DecidableEq W] in
theorem open_pull : Open (fun a b => adj (e a) (e b)) len (Search.pull e x) (Shift.pull e m) ↔ Open adj len x m := by
  unfold Open
  rw [forbidden_pull]
  refine and_congr ?_ (and_congr_left' ?_)
  · simp [Search.pull, Shift.pull]
  · change Admissible _ (x.labels ∘ e) (e.symm m.area) m.new ↔ _
    rw [admissible_comp, Equiv.apply_symm_apply]

include he in
omit [DecidableEq V] [DecidableEq W] in
theorem earlier_pull : Earlier (fun a b => adj (e a) (e b)) (Search.pull e x) (Shift.pull e m) (Shift.pull e m') ↔
    Earlier adj x m m' := by
  unfold Earlier
  dsimp only [Shift.pull, Search.pull, Function.comp]
  rw [← he, Equiv.apply_symm_apply, Equiv.apply_symm_apply, e.symm.apply_eq_iff_eq]
  refine or_congr_right (and_congr_right fun _ => ?_)
  constructor
  · rintro ⟨u, h1, h2, h3⟩
    refine ⟨e u, h1, h2, fun u' h4 h5 => ?_⟩
    have := (he _ _).2 (h3 (e.symm u') (by rwa [Equiv.apply_symm_apply]) (by rwa [Equiv.apply_symm_apply]))
    rwa [Equiv.apply_symm_apply] at this
  · rintro ⟨u, h1, h2, h3⟩
    refine ⟨e.symm u, by rwa [Equiv.apply_symm_apply], by rwa [Equiv.apply_symm_apply], fun u' h4 h5 => ?_⟩
    rw [← he, Equiv.apply_symm_apply]
    exact h3 _ h4 h5

omit [LT V] [LT W] in
theorem moved_pull (L : W → Int) (a : W) (r : Int) : moved (L ∘ e) (e.symm a) r = moved L a r ∘ e := by
  rw [← moved_comp, Equiv.apply_symm_apply]

include hv in
omit [LT V] [LT W] [DecidableEq V] [DecidableEq W] in
theorem pull_le (L L' : W → Int) : value' (L ∘ e) ≤ value' (L' ∘ e) ↔ value L ≤ value L' := by
  rw [← not_lt, ← not_lt, hv]

include hv in
omit [LT V] [LT W] [DecidableEq V] [DecidableEq W] in
theorem pull_eq (L L' : W → Int) : value' (L ∘ e) = value' (L' ∘ e) ↔ value L = value L' := by
  rw [le_antisymm_iff, le_antisymm_iff, pull_le e hv, pull_le e hv]

include he hv in
theorem best_pull : Best (fun a b => adj (e a) (e b)) value' len (Search.pull e x) (Shift.pull e m) ↔
    Best adj value len x m := by
  unfold Best
  rw [open_pull]
  refine and_congr_right fun _ => ?_
  have key : ∀ m', (Open (fun a b => adj (e a) (e b)) len (Search.pull e x) (Shift.pull e m') →
      Shift.pull e m' = Shift.pull e m ∨
      value' (moved (Search.pull e x).labels (Shift.pull e m).area (Shift.pull e m).new) <
        value' (moved (Search.pull e x).labels (Shift.pull e m').area (Shift.pull e m').new) ∨
      value' (moved (Search.pull e x).labels (Shift.pull e m).area (Shift.pull e m).new) =
        value' (moved (Search.pull e x).labels (Shift.pull e m').area (Shift.pull e m').new) ∧
        Earlier (fun a b => adj (e a) (e b)) (Search.pull e x) (Shift.pull e m) (Shift.pull e m')) ↔
      (Open adj len x m' → m' = m ∨
        value (moved x.labels m.area m.new) < value (moved x.labels m'.area m'.new) ∨
        value (moved x.labels m.area m.new) = value (moved x.labels m'.area m'.new) ∧ Earlier adj x m m') := by
    intro m'
    rw [open_pull, earlier_pull e he, (Shift.pull_inj e).eq_iff]
    change (_ → _ ∨ value' (moved (x.labels ∘ e) (e.symm m.area) m.new) <
      value' (moved (x.labels ∘ e) (e.symm m'.area) m'.new) ∨
      value' (moved (x.labels ∘ e) (e.symm m.area) m.new) =
      value' (moved (x.labels ∘ e) (e.symm m'.area) m'.new) ∧ _) ↔ _
    rw [moved_pull, moved_pull, hv, pull_eq e hv]
  constructor
  · exact fun h m' => (key m').1 (h _)
  · intro h m'
    have := (key (Shift.pull e.symm m')).2 (h _)
    rwa [Shift.pull_symm] at this

omit [LT V] [LT W] in
theorem sent_pull {a : W} {r : Int} (h : Sent adj a r x y) :
    Sent (fun a b => adj (e a) (e b)) (e.symm a) r (Search.pull e x) (Search.pull e y) := by
  obtain ⟨h1, h2, h3, h4, h5⟩ := h
  refine ⟨?_, ?_, h3, ?_, ?_⟩
  · simp [Search.pull, Shift.pull, h1]
  · simp [Search.pull, h2]
  · intro h
    change AllContiguous _ (moved (x.labels ∘ e) _ _) at h
    rw [moved_pull, allContiguous_comp] at h
    change y.labels ∘ e = moved (x.labels ∘ e) _ _
    rw [moved_pull, h4 h]
  · intro h
    change ¬ AllContiguous _ (moved (x.labels ∘ e) _ _) at h
    rw [moved_pull, allContiguous_comp] at h
    change y.labels ∘ e = x.labels ∘ e
    rw [h5 h]

omit [LT V] [LT W] [DecidableEq V] [DecidableEq W] in
theorem noted_pull : Search.pull e (noted reps x) = noted reps (Search.pull e x) := by
  classical
  unfold noted Search.pull
  dsimp only
  rw [List.map_append, List.map_cons, List.map_nil]
  congr 2
  have hinj : Function.Injective fun L : W → Int => L ∘ e := by
    intro L L' h
    funext w
    have := congrFun h (e.symm w)
    simpa using this
  have := List.count_map_of_injective x.seen (fun L : W → Int => L ∘ e) hinj x.labels
  convert (congrArg (fun c : Nat => reps ≤ (c : Int)) this).symm using 1

include hv in
omit [LT V] [LT W] in
theorem stuck_pull : Stuck (fun a b => adj (e a) (e b)) value' len (Search.pull e x) ↔ Stuck adj value len x := by
  have key : ∀ m, (Open (fun a b => adj (e a) (e b)) len (Search.pull e x) (Shift.pull e m) →
      value' (Search.pull e x).labels < value' (moved (Search.pull e x).labels (Shift.pull e m).area (Shift.pull e m).new)) ↔
      (Open adj len x m → value x.labels < value (moved x.labels m.area m.new)) := by
    intro m
    rw [open_pull]
    change (_ → value' (x.labels ∘ e) < value' (moved (x.labels ∘ e) (e.symm m.area) m.new)) ↔ _
    rw [moved_pull, hv]
  constructor
  · exact fun h m => (key m).1 (h _)
  · intro h m'
    have := (key (Shift.pull e.symm m')).2 (h _)
    rwa [Shift.pull_symm] at this

include hv in
omit [LT V] [LT W] in
theorem aspirant_pull : Aspirant value' len (Search.pull e x) (Shift.pull e m) ↔ Aspirant value len x m := by
  unfold Aspirant
  rw [forbidden_pull]
  change _ ∧ (x.labels ∘ e) (e.symm m.area) = m.old ∧
    value' (moved (x.labels ∘ e) (e.symm m.area) m.new) < value' (x.labels ∘ e) ↔ _
  rw [moved_pull, hv]
  simp

include hv in
omit [LT V] [LT W] in
theorem aspired_pull (h : Aspired adj value len x y) :
    Aspired (fun a b => adj (e a) (e b)) value' len (Search.pull e x) (Search.pull e y) := by
  rcases h with ⟨rfl, h⟩ | ⟨m, hm, h⟩
  · refine .inl ⟨rfl, fun m' hm' => ?_⟩
    rw [← Shift.pull_symm e m', aspirant_pull e hv] at hm'
    exact h _ hm'
  · exact .inr ⟨Shift.pull e m, (aspirant_pull e hv).2 hm, sent_pull e h⟩

include he hv in
theorem retried_pull (h : Retried adj value len x y z) :
    Retried (fun a b => adj (e a) (e b)) value' len (Search.pull e x) (Search.pull e y) (Search.pull e z) := by
  rcases h with ⟨m, hm, hle, h⟩ | ⟨h, rfl⟩
  · refine .inl ⟨Shift.pull e m, (best_pull e he hv).2 hm, ?_, sent_pull e h⟩
    change value' (moved (y.labels ∘ e) (e.symm m.area) m.new) ≤ value' (y.labels ∘ e)
    rwa [moved_pull, pull_le e hv]
  · refine .inr ⟨fun m' hm' => ?_, rfl⟩
    rw [← Shift.pull_symm e m', best_pull e he hv] at hm'
    have := h _ hm'
    rw [← hv, ← moved_pull] at this
    simpa [Shift.pull, Search.pull] using this

include he hv in
theorem tabuRound_pull (h : TabuRound adj value len reps x y) :
    TabuRound (fun a b => adj (e a) (e b)) value' len reps (Search.pull e x) (Search.pull e y) := by
  unfold TabuRound
  rw [← noted_pull]
  rcases h with ⟨m, hm, hle, h⟩ | ⟨hst, hd, z, hz, hy⟩
  · refine .inl ⟨Shift.pull e m, (best_pull e he hv).2 hm, ?_, sent_pull e h⟩
    change value' (moved ((noted reps x).labels ∘ e) (e.symm m.area) m.new) ≤ value' ((noted reps x).labels ∘ e)
    rwa [moved_pull, pull_le e hv]
  · exact .inr ⟨(stuck_pull e hv).2 hst, hd, Search.pull e z, aspired_pull e hv hz, retried_pull e he hv hy⟩

include he hv in
theorem tabuRun_pull {L : W → Int} (h : TabuRun adj value len reps x L) :
    TabuRun (fun a b => adj (e a) (e b)) value' len reps (Search.pull e x) (L ∘ e) := by
  induction h with
  | @stop x L h =>
    obtain ⟨hst, hd, z, hz, rfl⟩ := h
    refine .stop ?_
    unfold TabuEnd
    rw [← noted_pull]
    exact ⟨(stuck_pull e hv).2 hst, hd, Search.pull e z, aspired_pull e hv hz, rfl⟩
  | next h _ ih => exact .next (tabuRound_pull e he hv h) ih

include he hv in
theorem tabuResult_comp (init L : W → Int) :
    TabuResult (fun a b => adj (e a) (e b)) value' len reps (init ∘ e) (L ∘ e) ↔
      TabuResult adj value len reps init L := by
  have hce : ∀ L : V → Int, (L ∘ e.symm) ∘ e = L := fun L => by funext v; simp
  have hec : ∀ L : W → Int, (L ∘ e) ∘ e.symm = L := fun L => by funext v; simp
  refine ⟨fun h => ?_, fun h => tabuRun_pull e he hv h⟩
  have := tabuRun_pull e.symm (value' := value) (fun a b => by rw [← he]; simp)
    (fun L L' => by rw [← hv, hce, hce]) h
  rw [hec] at this
  have h0 : Search.pull e.symm ⟨init ∘ e, [], [], False⟩ = (⟨init, [], [], False⟩ : Search W) := by
    unfold Search.pull
    rw [show (⟨init ∘ e, [], [], False⟩ : Search V).labels = init ∘ e from rfl, hec]
    rfl
  rw [h0] at this
  simp only [Equiv.apply_symm_apply] at this
  exact this

end Renumber

/-! ### Without tabu moves nothing is left to chance -/

theorem tabuRun_unique {V : Type} [Preorder V] [DecidableEq V] {adj : V → V → Bool} {value : (V → Int) → ℚ}
    {reps : Int} {x : Search V} {L L' : V → Int} (h : TabuRun adj value (some 0) reps x L)
    (h' : TabuRun adj value (some 0) reps x L') : L = L' := by
  have hasp : ∀ {x z : Search V}, Aspired adj value (some 0) x z → z = x := by
    rintro x z (⟨rfl, -⟩ | ⟨m, ⟨⟨i, hi, -⟩, -⟩, -⟩)
    · rfl
    · omega
  have hex : ∀ {x y : Search V}, Stuck adj value (some 0) x → ¬ Descends adj value (some 0) x y := by
    rintro x y hst ⟨m, hm, hle, -⟩
    exact absurd hle (not_le.2 (hst m hm.1))
  induction h with
  | @stop x L h =>
    obtain ⟨hst, hd, z, hz, rfl⟩ := h
    cases h' with
    | stop h' =>
      obtain ⟨-, -, z', hz', rfl⟩ := h'
      rw [hasp hz, hasp hz']
    | next h' _ =>
      rcases h' with h' | ⟨-, hnd, -⟩
      · exact absurd h' (hex hst)
      · exact absurd hd hnd
  | @next x y L h _ ih =>
    cases h' with
    | stop h' =>
      obtain ⟨hst, hd, -⟩ := h'
      rcases h with h | ⟨-, hnd, -⟩
      · exact absurd h (hex hst)
      · exact absurd hd hnd
    | @next _ y' _ h' t' =>
      have : y' = y := by
        rcases h with h | ⟨hst, -, z, hz, hr⟩ <;> rcases h' with h' | ⟨hst', -, z', hz', hr'⟩
        · obtain ⟨m, h1, -, h2⟩ := h
          obtain ⟨m', h1', -, h2'⟩ := h'
          cases best_unique h1 h1'
          exact sent_unique h2' h2
        · exact absurd h (hex hst')
        · exact absurd h' (hex hst)
        · cases hasp hz
          cases hasp hz'
          exact retried_unique hr' hr
      subst this
      exact ih t'

/-! ### One component -/

section
variable {n q k : Nat} {ρ : Type} {metric : ρ → ρ → ℚ} {adj : Adj k} {attr : Fin k → ρ} {init : Labels k}
  {len : Option Nat} {reps : Int} {expf : ℚ → ℚ} {idx : Fin k → Fin n}

theorem uniqueSorted_one (hk : 0 < k) :
    (uniqueSorted (arrayList init)).length = 1 ↔ ∀ a b, init a = init b := by
  have hreg : ∀ r, r ∈ uniqueSorted (arrayList init) ↔ ∃ i, init i = r := by
    intro r
    rw [mem_uniqueSorted, mem_arrayList]
  rw [List.length_eq_one_iff]
  constructor
  · rintro ⟨r, h⟩ a b
    have ha := (hreg _).2 ⟨a, rfl⟩
    have hb := (hreg _).2 ⟨b, rfl⟩
    rw [h, List.mem_singleton] at ha hb
    rw [ha, hb]
  · intro h
    refine ⟨init ⟨0, hk⟩, ?_⟩
    have hnd : (uniqueSorted (arrayList init)).Nodup := uniqueSorted_nodup _
    refine List.perm_singleton.1 ((List.perm_ext_iff_of_nodup hnd (List.nodup_singleton _)).2 fun r => ?_)
    rw [hreg, List.mem_singleton]
    exact ⟨fun ⟨i, hi⟩ => hi ▸ h _ _, fun h => ⟨_, h.symm⟩⟩

/-- What `_azp_connected_component` can return with some fuel. -/
def TabuOutN (adj : Adj k) (value : Labels k → ℚ) (len : Option Nat) (reps : Int) (F : Nat) (init out : Labels k) :
    Prop :=
  ((∀ a b, init a = init b) ∧ out = init) ∨
    (¬ (∀ a b, init a = init b) ∧ TabuRunN adj value len reps F ⟨init, [], [], False⟩ out)

theorem tabuOutN_mono {value : Labels k → ℚ} {F F' : Nat} (hF : F ≤ F') {out : Labels k}
    (h : TabuOutN adj value len reps F init out) : TabuOutN adj value len reps F' init out :=
  h.imp_right fun h => ⟨h.1, tabuRunN_mono hF h.2⟩

theorem tabuOutN_iff {value : Labels k → ℚ} {out : Labels k} :
    (∃ F, TabuOutN adj value len reps F init out) ↔ TabuResult adj value len reps init out := by
  by_cases h1 : ∀ a b, init a = init b
  · rw [single_result h1]
    constructor
    · rintro ⟨F, ⟨-, h⟩ | ⟨h, -⟩⟩
      · exact h
      · exact absurd h1 h
    · exact fun h => ⟨0, .inl ⟨h1, h⟩⟩
  · unfold TabuResult
    rw [tabuRun_iff]
    constructor
    · rintro ⟨F, ⟨h, -⟩ | ⟨-, h⟩⟩
      · exact absurd h h1
      · exact ⟨F, h⟩
    · exact fun ⟨F, h⟩ => ⟨F, .inr ⟨h1, h⟩⟩

theorem shows_start (v : ℚ) (rng : Rng) : Shows (n := n) (q := q) len ⟨init, [], [], False⟩
    { labels := init, tabu := ⟨[], len⟩, visited := [], stop := false, strat := .azp v, rng := rng } := by
  refine ⟨rfl, rfl, ?_, rfl, by simp, v, rfl⟩
  cases len <;> simp [latest]

theorem basicComponent_sound (hd : Dissimilarity metric) (hs : Spec.Symmetric adj) (hk : 0 < k)
    (hc : AllContiguous adj init) {F : Nat} {v : ℚ} {rng : Rng} {out : Labels k} {st' : Strat n q} {rng' : Rng}
    (h : basicComponent (Strat.ops expf idx attr (pairwise metric)) (pairwise metric) attr adj len reps F init
      (.azp v) rng = .ok (out, st', rng')) :
    TabuOutN adj (fun L => (pairwise metric).call L attr) len reps F init out ∧ ∃ w, st' = .azp w := by
  unfold basicComponent at h
  by_cases h1 : (uniqueSorted (arrayList init)).length = 1
  · rw [if_pos h1] at h
    cases h
    exact ⟨.inl ⟨(uniqueSorted_one hk).1 h1, rfl⟩, v, rfl⟩
  · rw [if_neg h1, Res.bind_eq_ok] at h
    obtain ⟨s, h2, h3⟩ := h
    cases h3
    obtain ⟨h4, h5⟩ := basicLoop_sound hd.symm hd.zero hd.nonneg hs F (shows_start v rng)
      ⟨hc, fun x => Iff.rfl, by simp, v, rfl⟩ h2
    exact ⟨.inr ⟨fun h => h1 ((uniqueSorted_one hk).2 h), h4⟩, h5.strat⟩

theorem basicComponent_complete (hd : Dissimilarity metric) (hs : Spec.Symmetric adj) (hk : 0 < k)
    (hc : AllContiguous adj init) {F : Nat} (v : ℚ) {out : Labels k}
    (h : TabuOutN adj (fun L => (pairwise metric).call L attr) len reps F init out) :
    ∃ st' : Strat n q, (∃ w, st' = .azp w) ∧ ∀ r', ∃ r0,
      basicComponent (Strat.ops expf idx attr (pairwise metric)) (pairwise metric) attr adj len reps F init
      (.azp v) r0 = .ok (out, st', r') := by
  rcases h with ⟨h1, rfl⟩ | ⟨h1, h⟩
  · refine ⟨.azp v, ⟨v, rfl⟩, fun r' => ⟨r', ?_⟩⟩
    unfold basicComponent
    rw [if_pos ((uniqueSorted_one hk).2 h1)]
  · obtain ⟨s', rfl, hst, h2⟩ := basicLoop_complete (n := n) (q := q) (expf := expf) (idx := idx) hd.symm hd.zero
      hd.nonneg hs (init := init) h (shows_start v fun _ => 0) ⟨hc, fun x => Iff.rfl, by simp, v, rfl⟩
    refine ⟨s'.strat, hst, fun r' => ?_⟩
    obtain ⟨r0, h2⟩ := h2 r'
    refine ⟨r0, ?_⟩
    unfold basicComponent
    rw [if_neg fun h => h1 ((uniqueSorted_one hk).1 h), h2, Res.bind_ok]

end

/-! ### Whole maps -/

section
variable {n q : Nat} {ρ : Type} {metric : ρ → ρ → ℚ} {adj : Adj n} {init : Labels n}
  {len : Option Nat} {reps : Int} {expf : ℚ → ℚ}

theorem basic_exactStep (hd : Dissimilarity metric) (hs : Spec.Symmetric adj) (hc : AllContiguous adj init)
    (hm : ∀ v, init v ≠ -1) (attr : Fin n → ρ) (F : Nat) {c : Nat} (hlt : c < nComponents adj) :
    ExactStep adj attr (fun idx a init at' (st : Strat n q) rng =>
      basicComponent (Strat.ops expf (fun i => idx.get i) at' (pairwise metric)) (pairwise metric) at' a len reps F
        init (st.start ((pairwise metric).call init at')) rng) (fun st => ∃ v, st = .azp v)
      (fun idx => TabuOutN (subAdj adj idx) (fun l => (pairwise metric).call l fun i => attr (idx.get i)) len reps F)
      (compArray adj init c) := by
  have hk : 0 < (shown (compArray adj init c)).length := List.length_pos_iff.2 (areas_ne hm hlt)
  have hcont := comp_contiguous hc c
  have hget := compArray_get adj init c
  constructor
  · rintro st rng out st' rng' ⟨v, rfl⟩ h
    rw [hget] at h ⊢
    exact basicComponent_sound hd (subAdj_symm hs _) hk hcont h
  · rintro st out ⟨v, rfl⟩ h
    rw [hget] at h ⊢
    exact basicComponent_complete hd (subAdj_symm hs _) hk hcont _ h

theorem islandEquiv_lt (hm : ∀ v, init v ≠ -1) (u : Fin n)
    (i j : Fin (shown (compArray adj init (compLabels adj u))).length) :
    islandEquiv adj init hm u i < islandEquiv adj init hm u j ↔ i < j := by
  have h : ∀ i j : Fin (shown (compArray adj init (compLabels adj u))).length, i < j →
      islandEquiv adj init hm u i < islandEquiv adj init hm u j := by
    intro i j hij
    have := List.pairwise_iff_get.1 (shown_sorted (compArray adj init (compLabels adj u))) i j hij
    exact this
  refine ⟨fun hlt => ?_, h i j⟩
  by_contra hn
  rcases lt_or_eq_of_le (not_lt.1 hn) with h' | h'
  · exact lt_asymm hlt (h _ _ h')
  · rw [h'] at hlt
    exact lt_irrefl _ hlt

/-- The areas of an island, once as positions and once as areas. -/
theorem tabu_on_island (hsym : ∀ x y, metric x y = metric y x) (attr : Fin n → ρ) (hm : ∀ v, init v ≠ -1)
    (L : Labels n) (u : Fin n) :
    TabuResult (subAdj adj (shown (compArray adj init (compLabels adj u))))
      (fun l => (pairwise metric).call l fun i => attr ((shown (compArray adj init (compLabels adj u))).get i))
      len reps (fun i => init ((shown (compArray adj init (compLabels adj u))).get i))
      (fun i => L ((shown (compArray adj init (compLabels adj u))).get i)) ↔
    TabuResult (fun a b : Island adj u => adj a b)
      (dissimilarity fun a b : Island adj u => metric (attr a) (attr b)) len reps
      (onIsland adj u init) (onIsland adj u L) := by
  refine tabuResult_comp (islandEquiv adj init hm u) (islandEquiv_lt hm u) (adj := fun a b => adj a b)
    (fun l l' => ?_) (onIsland adj u init) (onIsland adj u L)
  rw [pairwise_island hsym attr init hm, pairwise_island hsym attr init hm]
  exact div_lt_div_iff_of_pos_right (by norm_num)

theorem basicFit_exact (o : MstOrder) (hd : Dissimilarity metric) (hs : Spec.Symmetric adj) (attr : Fin n → ρ)
    {p : Int} (hc : AllContiguous adj init) (hp : (numRegions init : Int) = p) (hm : ∀ v, init v ≠ -1) (v : ℚ)
    (L : Labels n) :
    (∃ F rng st rng', basicTabuFit (q := q) o expf (pairwise metric) F len reps adj attr p (some init) (.azp v) rng =
      .ok (L, st, rng')) ↔
      ∀ u, TabuResult (fun a b : Island adj u => adj a b)
        (dissimilarity fun a b : Island adj u => metric (attr a) (attr b)) len reps
        (onIsland adj u init) (onIsland adj u L) := by
  have hex : ∀ F, (∃ rng st rng', basicTabuFit (q := q) o expf (pairwise metric) F len reps adj attr p (some init)
      (.azp v) rng = .ok (L, st, rng')) ↔ _ := fun F =>
    fitWith_exact o hc hp (fun c hlt => basic_exactStep (expf := expf) (len := len) (reps := reps) hd hs hc hm attr F
      hlt) ⟨v, rfl⟩ L
  have key := tabu_on_island (len := len) (reps := reps) hd.symm (adj := adj) attr hm L
  constructor
  · rintro ⟨F, h⟩ u
    refine (key u).1 (tabuOutN_iff.1 ⟨F, ?_⟩)
    exact ((hex F).1 h).2 _ (compLabels_lt adj u)
  · intro h
    have h1 : ∀ u, ∃ F, TabuOutN (subAdj adj (shown (compArray adj init (compLabels adj u))))
        (fun l => (pairwise metric).call l fun i => attr ((shown (compArray adj init (compLabels adj u))).get i))
        len reps F (fun i => init ((shown (compArray adj init (compLabels adj u))).get i))
        (fun i => L ((shown (compArray adj init (compLabels adj u))).get i)) :=
      fun u => tabuOutN_iff.2 ((key u).2 (h u))
    choose F hF using h1
    refine ⟨Finset.univ.sup F, (hex _).2 ⟨fun v hv => absurd hv (hm v), fun c hlt => ?_⟩⟩
    obtain ⟨u, rfl⟩ := compLabels_surj adj hlt
    exact tabuOutN_mono (Finset.le_sup (Finset.mem_univ u)) (hF u)

end

end Region
