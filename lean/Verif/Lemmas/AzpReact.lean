import Verif.Lemmas.AzpTabu
import Verif.Props.Azp
/-
Lemmas about reactive tabu search, and about `fit` for routines other than AZP.
-/
namespace Region

open Spec Relation Props

/-- `fitWith_post` for a component routine that is good on every contiguous start. -/
theorem fitWith_comp {σ ρ : Type} {n : Nat} (o : MstOrder) {adj : Adj n} (attr : Fin n → ρ)
    {comp : CompFn σ n ρ} {S : σ → Prop}
    {Q : (idx : List (Fin n)) → Labels idx.length → Labels idx.length → Prop} {R T : Prop}
    (p : Int) (initial : Option (Labels n)) (hstart : ¬ R → GoodStart adj p initial)
    (hcomp : ∀ (idx : List (Fin n)) (init : Labels idx.length) (st : σ) (rng : Rng), idx.Nodup →
      idx.length ≤ n → (¬ R → idx ≠ []) → AllContiguous (subAdj adj idx) init → S st →
      (comp idx (subAdj adj idx) init (fun i => attr (idx.get i)) st rng).Post R T fun q =>
        Q idx init q.1 ∧ S q.2.1)
    (st : σ) (hst : S st) (rng : Rng) :
    (fitWith o adj attr comp p initial st rng).Post R T fun q =>
      S q.2.1 ∧ ∃ lab, StartsFrom adj p initial lab ∧
        Fitted Q (separateComponents adj lab) (fun _ => -1) q.1 := by
  refine fitWith_post o p initial ?_ ?_ st hst rng
  · intro hR
    have := hstart hR
    cases initial with
    | some init => exact ⟨this.1, this.2.1⟩
    | none => exact this
  · intro lab hlab c hc st rng hS
    have hcont := comp_contiguous hlab.1 c
    have he' : (fun i => compArray adj lab c ((shown (compArray adj lab c)).get i)) =
        fun i => lab ((shown (compArray adj lab c)).get i) := by
      funext i
      have hi := mem_shown.1 (List.get_mem (shown (compArray adj lab c)) i)
      have := (compArray_ne.1 hi).1
      change (if compLabels adj ((shown (compArray adj lab c)).get i) = c then _ else _) = _
      rw [if_pos this]
    rw [he']
    have hne : ¬ R → shown (compArray adj lab c) ≠ [] := by
      intro hR
      have hstart := hstart hR
      obtain ⟨w, hw⟩ := compLabels_surj adj hc
      have : ∃ u, SameIsland adj u w ∧ lab u ≠ -1 := by
        cases initial with
        | some init =>
          obtain ⟨_, _, rfl⟩ := hlab
          exact hstart.2.2 w
        | none => exact ⟨w, .refl, by have := (hlab.2.2 w).1; omega⟩
      obtain ⟨u, hu1, hu2⟩ := this
      intro h
      have : u ∈ shown (compArray adj lab c) := by
        rw [mem_shown, compArray_ne]
        exact ⟨by rw [← hw]; exact (compLabels_eq_iff adj _ _).2 hu1, hu2⟩
      rw [h] at this; cases this
    have hnd := shown_nodup (compArray adj lab c)
    have hlen : (shown (compArray adj lab c)).length ≤ n := by
      have := hnd.length_le_card
      simpa using this
    exact hcomp _ _ st rng hnd hlen hne hcont hS

section React
variable {σ : Type} {k : Nat} {ρ : Type} {ops : StratOps σ k} {obj : Objective ρ} {attr : Fin k → ρ}
  {adj : Adj k}

/-- One can get from one labelling to the other by giving one area at a time another label, with all regions
contiguous after every move. -/
def MoveWalk (adj : Adj k) : Labels k → Labels k → Prop :=
  ReflTransGen fun L L' => ∃ a r, (∀ v, L' v = if v = a then r else L v) ∧ AllContiguous adj L'

/-- `P` is not lost by a move that keeps all regions contiguous. -/
def Lasts (adj : Adj k) (P : Labels k → Prop) : Prop :=
  ∀ L L' : Labels k, P L → (∃ a r, (∀ v, L' v = if v = a then r else L v) ∧ AllContiguous adj L') → P L'

/-- A labelling of the component with contiguous regions and labels of the start only, and with `P`. -/
def GoodLabels (adj : Adj k) (init : Labels k) (P : Labels k → Prop) (L : Labels k) : Prop :=
  AllContiguous adj L ∧ (∀ v, ∃ i, init i = L v) ∧ P L

/-- Nothing but good labellings is stored. -/
def ReactInv (adj : Adj k) (init : Labels k) (P : Labels k → Prop) (s : TabuState σ k) : Prop :=
  GoodLabels adj init P s.labels ∧ ∀ l ∈ s.visited, ∃ L, l = arrayList L ∧ GoodLabels adj init P L

variable {P : Labels k → Prop} (hP : Lasts adj P)
include hP

theorem tryMove_good {s : TabuState σ k} {m : Move k} {init : Labels k}
    (hm : ∃ i, init i = m.new) (hi : ReactInv adj init P s) :
    (tryMove ops adj m s).Post True True fun p =>
      ReactInv adj init P p.2 ∧ p.2.visited = s.visited := by
  unfold tryMove
  refine Res.Post.bind (Q := fun _ => True) (Res.post_partial.2 fun _ _ => trivial) ?_
  rintro ⟨al, st, rng⟩ _ _
  dsimp only
  cases al with
  | true =>
    obtain ⟨b, L', h1, h2, h3, h4, h5⟩ := tabuMakeMove_spec m.area m.new hi.1.1 s.tabu
    rw [if_pos rfl, h1, Res.bind_ok]
    refine ⟨⟨⟨h5, ?_⟩, hi.2⟩, rfl⟩
    cases b with
    | true =>
      refine ⟨fun v => ?_, hP _ _ hi.1.2.2 ⟨m.area, m.new, fun v => ?_, h5⟩⟩
      · change ∃ i, init i = L' v
        rw [h3 rfl]
        by_cases hv : v = m.area
        · simpa [moved, hv] using hm
        · simpa [moved, hv] using hi.1.2.1 v
      · change L' v = _
        rw [h3 rfl]
        simp [moved]
    | false => rw [h4 rfl]; exact hi.1.2
  | false => exact ⟨hi, rfl⟩

theorem randomMoves_good {init : Labels k} :
    ∀ (c : Nat) (moves : List (Move k)) (s : TabuState σ k),
      (∀ m ∈ moves, ∃ i, init i = m.new) → ReactInv adj init P s →
      (randomMoves ops adj c moves s).Post True True fun s' => ReactInv adj init P s' := by
  intro c
  induction c with
  | zero => intro moves s _ hi; exact hi
  | succ c ih =>
    intro moves s hm hi
    unfold randomMoves
    refine Res.Post.bind (Q := fun q : Move k × List (Move k) × Rng =>
      (∃ i, init i = q.1.new) ∧ ∀ m ∈ q.2.1, ∃ i, init i = m.new) (Res.post_partial.2 ?_) ?_
    · intro q hq
      obtain ⟨pos, hpos, h1, h2, _⟩ := popRandomlyFrom_ok hq
      refine ⟨by rw [h1]; exact hm _ (List.getElem_mem hpos), ?_⟩
      intro m hmem
      rw [h2] at hmem
      exact hm m (List.mem_of_mem_eraseIdx hmem)
    · rintro ⟨m, rest, rng⟩ _ ⟨h1, h2⟩
      dsimp only at h1 h2 ⊢
      refine (tryMove_good hP (s := { s with rng := rng }) h1 hi).bind ?_
      rintro ⟨b, s'⟩ _ ⟨h3, _⟩
      exact ih rest s' h2 h3

theorem reactRound_good {init : Labels k} (k1 k2 : Int) (avg : ℚ)
    {s : TabuState σ k} (hi : ReactInv adj init P s) :
    (reactRound ops obj attr adj k1 k2 avg s).Post True True fun p =>
      ReactInv adj init P p.2 ∧
      match p.1 with
      | .ten => p.2.visited ≠ []
      | .eleven saved => ∃ L, saved = arrayList L ∧ GoodLabels adj init P L := by
  have hpos : ∀ m ∈ possibleMoves adj s.labels s.tabu, ∃ i, init i = m.new := by
    intro m hm
    obtain ⟨_, ⟨_, ⟨u, hu, _⟩, _⟩, _⟩ := possibleMoves_admissible hm
    obtain ⟨i, hi⟩ := hi.1.2.1 u
    exact ⟨i, by rw [hi, hu]⟩
  unfold reactRound
  dsimp only
  refine Res.Post.bind (Q := fun best => ∀ j m d, best = some (j, m, d) →
    m ∈ possibleMoves adj s.labels s.tabu) (Res.post_partial.2 ?_) ?_
  · intro best hb j m d hbe
    have := (bestMove_post (bestMove_total_of_ok hb) 0 none).ok hb
    subst hbe
    obtain ⟨_, h2, _⟩ := this.1.resolve_left (by simp)
    exact List.mem_of_getElem? h2
  · intro best _ hb
    rcases best with _ | ⟨j, m, d⟩
    · trivial
    · dsimp only
      refine (tryMove_good hP (hpos m (hb j m d rfl)) hi).bind ?_
      rintro ⟨b, s1⟩ _ ⟨h1, hv1⟩
      dsimp only at h1 hv1 ⊢
      have hten : ReactInv adj init P { s1 with visited := s1.visited ++ [arrayList s1.labels] } := by
        refine ⟨h1.1, ?_⟩
        intro l hl
        rcases List.mem_append.1 hl with hl | hl
        · exact h1.2 l hl
        · rw [List.mem_singleton] at hl
          exact ⟨_, hl, h1.1⟩
      split_ifs with c1 c2 c3 c4 c5
      · refine (randomMoves_good hP (init := init) _ _ _ ?_ ?_).bind ?_
        · intro m hm
          exact hpos m (List.mem_of_mem_eraseIdx hm)
        · exact ⟨h1.1, by simp⟩
        · intro s2 _ h2
          exact ⟨h2, _, rfl, h1.1⟩
      · trivial
      · refine (randomMoves_good hP (init := init) _ _ _ ?_ ?_).bind ?_
        · intro m hm
          exact hpos m (List.mem_of_mem_eraseIdx hm)
        · exact ⟨h1.1, by simp⟩
        · intro s2 _ h2
          exact ⟨h2, _, rfl, h1.1⟩
      · trivial
      · exact ⟨hten, by simp⟩
      · exact ⟨hten, by simp⟩

theorem reactLoop_good {init : Labels k} (k1 k2 : Int) (avg : ℚ) :
    ∀ (it : Nat) (start : Option ℚ) (last : Option LastStep) (s : TabuState σ k),
      ReactInv adj init P s →
      (∀ saved, last = some (.eleven saved) → ∃ L, saved = arrayList L ∧ GoodLabels adj init P L) →
      (reactLoop ops obj attr adj k1 k2 avg it start last s).Post True True fun p =>
        ReactInv adj init P p.2 ∧
        ∀ saved, p.1 = some (.eleven saved) → ∃ L, saved = arrayList L ∧ GoodLabels adj init P L := by
  intro it
  induction it with
  | zero => intro start last s hi hl; exact ⟨hi, hl⟩
  | succ it ih =>
    intro start last s hi hl
    unfold reactLoop
    dsimp only
    split_ifs with hc
    · refine (reactRound_good hP k1 k2 avg hi).bind ?_
      rintro ⟨l, s1⟩ _ ⟨h1, h2⟩
      dsimp only at h1 h2 ⊢
      refine ih _ _ s1 h1 ?_
      intro saved hsv
      cases hsv
      exact h2
    · exact ⟨hi, hl⟩

theorem reactComponentList_good {init : Labels k} (h0 : P init) (hc : AllContiguous adj init)
    (maxIt : Nat) (k1 k2 : Int) (self : ReactObj σ)
    (hv : ∀ l ∈ self.visited, ∃ L, l = arrayList L ∧ GoodLabels adj init P L)
    {out : List Int} {self' : ReactObj σ}
    (h : reactComponentList ops obj attr adj maxIt k1 k2 init self = .ok (out, self')) :
    (∃ L, out = arrayList L ∧ GoodLabels adj init P L) ∧
      ∀ l ∈ self'.visited, ∃ L, l = arrayList L ∧ GoodLabels adj init P L := by
  have hg : GoodLabels adj init P init := ⟨hc, fun v => ⟨v, rfl⟩, h0⟩
  unfold reactComponentList at h
  split_ifs at h with h1
  · cases h
    exact ⟨⟨init, rfl, hg⟩, hv⟩
  · rw [Res.bind_eq_ok] at h
    obtain ⟨⟨last, s⟩, h2, h3⟩ := h
    have hl := (reactLoop_good hP (init := init) k1 k2 self.avg maxIt none none
      { labels := init, tabu := ⟨[], some 1⟩, visited := self.visited, stop := false,
        strat := self.strat, rng := self.rng } ⟨hg, hv⟩ (by simp)).ok h2
    dsimp only at h3 hl
    rw [Res.bind_eq_ok] at h3
    obtain ⟨o, h4, h5⟩ := h3
    cases h5
    refine ⟨?_, hl.1.2⟩
    unfold reactResult at h4
    split at h4
    · cases h4
    · split at h4
      · rename_i a b rest heq
        cases h4
        apply hl.1.2
        rw [← List.mem_reverse, heq]; simp
      · rename_i a heq
        cases h4
        apply hl.1.2
        rw [← List.mem_reverse, heq]; simp
      · cases h4
    · cases h4
      exact hl.2 _ rfl

omit hP

/-! ### The default strategy and `k1 ≥ 1` -/

/-- The state of a run on a fresh object at the top of the loop: `start` is the objective value of the
last turn, everything stored before the current labelling is at least that bad. -/
structure ReactTop (adj : Adj k) (obj : Objective ρ) (attr : Fin k → ρ) (P : σ → Prop)
    (init : Labels k) (start : Option ℚ) (s : TabuState σ k) (pre : List (Labels k)) : Prop where
  cont : AllContiguous adj s.labels
  image : ∀ x, (∃ i, s.labels i = x) ↔ ∃ i, init i = x
  strat : P s.strat
  tabu : s.tabu.items.length ≤ 1
  maxlen : s.tabu.maxlen = some 1
  value : obj.call s.labels attr ≤ obj.call init attr
  pre_ge : ∀ L ∈ pre, ∃ b, start = some b ∧ b ≤ obj.call L attr
  pre_le : ∀ L ∈ pre, obj.call L attr ≤ obj.call init attr
  pre_cont : ∀ L ∈ pre, AllContiguous adj L
  pre_image : ∀ L ∈ pre, ∀ x, (∃ i, L i = x) ↔ ∃ i, init i = x
  visited : (start = none ∧ pre = [] ∧ s.visited = []) ∨
    (start ≠ none ∧ s.visited = pre.map arrayList ++ [arrayList s.labels])

theorem reactRound_default (hs : Symmetric adj) (he : obj.Exact) (ht : obj.Total) {P : σ → Prop}
    (hop : NonWorsening ops obj attr P) {init : Labels k} {k1 : Int} (hk1 : 1 ≤ k1) (k2 : Int)
    (avg : ℚ) {start : Option ℚ} {s : TabuState σ k} {pre : List (Labels k)} {R : Prop}
    (hi : ReactTop adj obj attr P init start s pre)
    (himp : improving start (obj.call s.labels attr) = true)
    (hR : (∀ m : Move k, m.old = s.labels m.area → Admissible adj s.labels m.area m.new →
      m ∈ s.tabu.items) → R) :
    (reactRound ops obj attr adj k1 k2 avg s).Post R False fun p =>
      p.1 = .ten ∧ ∃ pre', ReactTop adj obj attr P init (some (obj.call s.labels attr)) p.2 pre' := by
  have hadm : ∀ m ∈ possibleMoves adj s.labels s.tabu, Admissible adj s.labels m.area m.new :=
    fun m hm => (possibleMoves_admissible hm).2.1
  have hupd : ∀ m ∈ possibleMoves adj s.labels s.tabu,
      ∃ d, obj.update m.area m.new s.labels attr = some d := by
    intro m hm
    obtain ⟨_, ⟨u, hu, _⟩, hb, _⟩ := hadm m hm
    exact ht _ _ _ _ ⟨u, hu⟩ hb
  unfold reactRound
  dsimp only
  refine ((bestMove_post hupd 0 none).mono False.elim id fun _ h => h).bind ?_
  intro best _ hb
  rcases best with _ | ⟨j, m, d⟩
  · apply hR
    intro m ho hm
    by_contra hcon
    have := (mem_possibleMoves hs (t := s.tabu)).2 ⟨ho, hm, hcon⟩
    rw [hb.2] at this
    cases this
  · dsimp only at hb ⊢
    obtain ⟨_, hjm, hd⟩ := hb.1.resolve_left (by simp)
    have hm : m ∈ possibleMoves adj s.labels s.tabu := List.mem_of_getElem? hjm
    refine ((tryMove_post (adj := adj) hop hi.strat hd hi.cont).mono False.elim id
      fun _ h => h).bind ?_
    rintro ⟨b, s1⟩ _ ⟨hP, hv, hst, hb, htabu, hl, hl', hcont⟩
    dsimp only at hP hv hst hb htabu hl hl' hcont ⊢
    have hcall := he _ _ _ _ _ hd
    have hval : obj.call s1.labels attr ≤ obj.call s.labels attr := by
      rcases hl with hl | ⟨hle, hl⟩
      · rw [hl]
      · rw [hl, hcall]; linarith
    have himg : ∀ x, (∃ i, s1.labels i = x) ↔ ∃ i, s.labels i = x := by
      rcases hl with hl | ⟨_, hl⟩
      · rw [hl]; exact fun _ => Iff.rfl
      · rw [hl]; exact moved_image (hadm m hm)
    have htab : s1.tabu.items.length ≤ 1 ∧ s1.tabu.maxlen = some 1 := by
      rcases htabu with h | h
      · rw [h]; exact ⟨hi.tabu, hi.maxlen⟩
      · rw [h]; exact ⟨Tabu.append_length _ _ hi.maxlen hi.tabu,
          by rw [Tabu.append_maxlen]; exact hi.maxlen⟩
    -- the earlier labellings are strictly worse
    have hpre : ∀ L ∈ pre, obj.call s.labels attr < obj.call L attr := by
      intro L hL
      obtain ⟨b, hb1, hb2⟩ := hi.pre_ge L hL
      rw [hb1] at himp
      simp only [improving, decide_eq_true_eq] at himp
      linarith
    have hcount : (s1.visited.count (arrayList s1.labels) : Int) ≤ 1 := by
      rw [hv]
      rcases hi.visited with ⟨_, _, h⟩ | ⟨_, h⟩
      · rw [h]; simp
      · rw [h, List.count_append, List.count_eq_zero.2]
        · have := List.count_le_length (l := [arrayList s.labels]) (a := arrayList s1.labels)
          simp only [List.length_singleton] at this
          omega
        · intro hmem
          obtain ⟨L, hL, hLe⟩ := List.mem_map.1 hmem
          have := arrayList_inj hLe
          have h2 := hpre L hL
          rw [this] at h2
          linarith
    have key : ∃ pre', ReactTop adj obj attr P init (some (obj.call s.labels attr))
        { s1 with visited := s1.visited ++ [arrayList s1.labels] } pre' := by
      rcases hi.visited with ⟨h1, h2, h3⟩ | ⟨h1, h2⟩
      · refine ⟨[], ⟨hcont, fun x => (himg x).trans (hi.image x), hP, htab.1, htab.2,
          hval.trans hi.value, by simp, by simp, by simp, by simp, .inr ⟨by simp, ?_⟩⟩⟩
        change s1.visited ++ _ = _
        rw [hv, h3]; rfl
      · refine ⟨pre ++ [s.labels], ⟨hcont, fun x => (himg x).trans (hi.image x), hP, htab.1, htab.2,
          hval.trans hi.value, ?_, ?_, ?_, ?_, .inr ⟨by simp, ?_⟩⟩⟩
        · intro L hL
          rcases List.mem_append.1 hL with hL | hL
          · exact ⟨_, rfl, (hpre L hL).le⟩
          · rw [List.mem_singleton] at hL; subst hL; exact ⟨_, rfl, le_rfl⟩
        · intro L hL
          rcases List.mem_append.1 hL with hL | hL
          · exact hi.pre_le L hL
          · rw [List.mem_singleton] at hL; subst hL; exact hi.value
        · intro L hL
          rcases List.mem_append.1 hL with hL | hL
          · exact hi.pre_cont L hL
          · rw [List.mem_singleton] at hL; subst hL; exact hi.cont
        · intro L hL
          rcases List.mem_append.1 hL with hL | hL
          · exact hi.pre_image L hL
          · rw [List.mem_singleton] at hL; subst hL; exact hi.image
        · change s1.visited ++ _ = _
          rw [hv, h2]; simp
    split_ifs with c1 c2 c3 c4 c5
    · omega
    · omega
    · omega
    · omega
    · exact ⟨rfl, key⟩
    · exact ⟨rfl, key⟩

theorem reactLoop_default (hs : Symmetric adj) (he : obj.Exact) (ht : obj.Total) {P : σ → Prop}
    (hop : NonWorsening ops obj attr P) {init : Labels k} {k1 : Int} (hk1 : 1 ≤ k1) (k2 : Int)
    (avg : ℚ) {R : Prop}
    (hR : ∀ (L : Labels k) (t : Tabu k), AllContiguous adj L →
      (∀ x, (∃ i, L i = x) ↔ ∃ i, init i = x) → t.items.length ≤ 1 →
      (∀ m : Move k, m.old = L m.area → Admissible adj L m.area m.new → m ∈ t.items) → R) :
    ∀ (it : Nat) (start : Option ℚ) (last : Option LastStep) (s : TabuState σ k)
      (pre : List (Labels k)), ReactTop adj obj attr P init start s pre →
      (start = none → 1 ≤ it) → (start ≠ none → last = some .ten) →
      (reactLoop ops obj attr adj k1 k2 avg it start last s).Post R False fun p =>
        p.1 = some .ten ∧ ∃ start' pre', start' ≠ none ∧
          ReactTop adj obj attr P init start' p.2 pre' := by
  intro it
  induction it with
  | zero =>
    intro start last s pre hi h1 h2
    have : start ≠ none := fun h => absurd (h1 h) (by omega)
    exact ⟨h2 this, start, pre, this, hi⟩
  | succ it ih =>
    intro start last s pre hi h1 h2
    unfold reactLoop
    dsimp only
    split_ifs with hc
    · refine (reactRound_default hs he ht hop hk1 k2 avg hi hc ?_).bind ?_
      · intro h
        exact hR s.labels s.tabu hi.cont hi.image hi.tabu h
      · rintro ⟨l, s1⟩ _ ⟨h3, pre', h4⟩
        dsimp only at h3 h4 ⊢
        exact ih _ _ s1 pre' h4 (by simp) (by rw [h3]; simp)
    · have : start ≠ none := by
        rintro rfl
        exact hc rfl
      exact ⟨h2 this, start, pre, this, hi⟩

/-- On a fresh object, with the default strategy and `k1 ≥ 1`. -/
theorem reactComponentList_default (hs : Symmetric adj) (he : obj.Exact) (ht : obj.Total)
    {P : σ → Prop} (hop : NonWorsening ops obj attr P) {init : Labels k}
    (hc : AllContiguous adj init) {k1 : Int} (hk1 : 1 ≤ k1) (k2 : Int) {maxIt : Nat}
    (hm : 1 ≤ maxIt) {R : Prop}
    (hR : ∀ (L : Labels k) (t : Tabu k), AllContiguous adj L →
      (∀ x, (∃ i, L i = x) ↔ ∃ i, init i = x) → t.items.length ≤ 1 →
      (∀ m : Move k, m.old = L m.area → Admissible adj L m.area m.new → m ∈ t.items) →
      numRegions init ≠ 1 → R)
    (self : ReactObj σ) (hv : self.visited = []) (hP : P self.strat) :
    (reactComponentList ops obj attr adj maxIt k1 k2 init self).Post R False fun p =>
      ∃ L, p.1 = arrayList L ∧ KeepsRegions adj init L ∧ obj.call L attr ≤ obj.call init attr := by
  unfold reactComponentList
  rw [length_unique_labels]
  split_ifs with h1
  · exact ⟨init, rfl, ⟨hc, fun _ => Iff.rfl⟩, le_rfl⟩
  · refine (reactLoop_default hs he ht hop hk1 k2 self.avg
      (fun L t a b c d => hR L t a b c d h1) maxIt none none _ [] ?_ (fun _ => hm)
      (fun h => absurd rfl h)).bind ?_
    · exact ⟨hc, fun _ => Iff.rfl, hP, by simp, rfl, le_rfl, by simp, by simp, by simp, by simp,
        .inl ⟨rfl, rfl, hv⟩⟩
    · rintro ⟨last, s⟩ _ ⟨h2, start, pre, h3, h4⟩
      dsimp only at h2 h4 ⊢
      obtain ⟨_, h5⟩ := h4.visited.resolve_left fun h => h3 h.1
      subst h2
      unfold reactResult
      dsimp only
      rw [h5]
      rcases List.eq_nil_or_concat pre with hp | ⟨pre0, L, hp⟩
      · subst hp
        exact ⟨s.labels, rfl, ⟨h4.cont, h4.image⟩, h4.value⟩
      · have hL : L ∈ pre := by rw [hp]; simp
        have : (pre.map arrayList ++ [arrayList s.labels]).reverse =
            arrayList s.labels :: arrayList L :: (pre0.map arrayList).reverse := by
          rw [hp]; simp
        rw [this]
        exact ⟨L, rfl, ⟨h4.pre_cont L hL, h4.pre_image L hL⟩, h4.pre_le L hL⟩

end React

/-- The default strategy. -/
theorem azp_nonWorsening {n q k : Nat} {ρ : Type} (expf : ℚ → ℚ) (idx : Fin k → Fin n)
    (attr : Fin k → ρ) (obj : Objective ρ) :
    NonWorsening (Strat.ops (q := q) expf idx attr obj) obj attr fun st => ∃ v, st = .azp v := by
  rintro st a r L rng d ⟨v, rfl⟩ hd
  change (Strat.call expf idx attr obj _ a r L rng).Post _ _ _
  unfold Strat.call
  rw [hd]
  dsimp only
  split_ifs with h
  · exact ⟨⟨_, rfl⟩, ⟨fun _ => h, fun _ => rfl⟩⟩
  · exact ⟨⟨_, rfl⟩, ⟨(fun h => by cases h), fun h' => absurd h' h⟩⟩

end Region
