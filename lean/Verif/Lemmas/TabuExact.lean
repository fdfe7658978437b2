import Verif.SpecTabuRun
import Verif.Lemmas.AzpTabu
import Verif.Lemmas.AzpReact
import Verif.Lemmas.StartCut
import Verif.Lemmas.AnnealFit
/-
The basic tabu search with all its possible results: one component.
-/
namespace Region

open Spec Relation Props

/-- A move in the words of the specification. -/
def Move.shift {k : Nat} (m : Move k) : Shift (Fin k) := ⟨m.area, m.old, m.new⟩

def Move.ofShift {k : Nat} (m : Shift (Fin k)) : Move k := ⟨m.area, m.old, m.new⟩

theorem Move.shift_inj {k : Nat} {m m' : Move k} (h : m.shift = m'.shift) : m = m' := by
  cases m; cases m'; cases h; rfl

/-- The last `len` elements. -/
def latest {α : Type} (len : Option Nat) (l : List α) : List α :=
  match len with
  | none => l
  | some k => l.drop (l.length - k)

theorem forbidden_iff {V : Type} {len : Option Nat} {x : Search V} {m : Shift V} :
    Forbidden len x m ↔ m ∈ latest len x.barred := by
  cases len with
  | none => rfl
  | some k =>
    unfold Forbidden latest
    dsimp only
    rw [List.mem_iff_getElem?]
    constructor
    · rintro ⟨i, hi, h⟩
      have hlt := (List.getElem?_eq_some_iff.1 h).1
      rw [List.length_reverse] at hlt
      rw [List.getElem?_reverse hlt] at h
      refine ⟨x.barred.length - 1 - i - (x.barred.length - k), ?_⟩
      rw [List.getElem?_drop, ← h]
      congr 1
      omega
    · rintro ⟨j, h⟩
      rw [List.getElem?_drop] at h
      have hlt := (List.getElem?_eq_some_iff.1 h).1
      refine ⟨x.barred.length - 1 - (x.barred.length - k + j), by omega, ?_⟩
      rw [List.getElem?_reverse (by omega), ← h]
      congr 1
      omega

theorem latest_append {α : Type} (len : Option Nat) (l : List α) (a : α) :
    latest len (l ++ [a]) = match len with
      | none => latest len l ++ [a]
      | some k => (latest len l ++ [a]).drop ((latest len l).length + 1 - k) := by
  cases len with
  | none => rfl
  | some k =>
    unfold latest
    dsimp only
    rw [List.length_drop, List.length_append, List.length_singleton]
    by_cases h : l.length ≤ k
    · rw [show l.length - k = 0 by omega]
      simp
    · rw [← List.drop_append_of_le_length (by omega), List.drop_drop]
      congr 1
      omega

section
variable {k : Nat} {ρ : Type} {metric : ρ → ρ → ℚ} {attr : Fin k → ρ} {adj : Adj k}

/-- The pairs from which the possible moves are made, in their order. -/
def movePairs (adj : Adj k) (L : Labels k) (t : Tabu k) : List (Fin k × Fin k) :=
  (List.finRange k).flatMap fun area =>
    if isConnected (subAdjWo adj (whereEq L (L area)) [area]) &&
        decide (count (arrayList L) (L area) > 1) then
      ((neighbors adj area).filter fun neigh =>
        decide (L neigh ≠ L area) && !t.items.contains ⟨area, L area, L neigh⟩).map fun u => (area, u)
    else []

theorem possibleMoves_eq (L : Labels k) (t : Tabu k) :
    possibleMoves adj L t = (movePairs adj L t).map fun p => ⟨p.1, L p.1, L p.2⟩ := by
  unfold possibleMoves movePairs
  rw [List.map_flatMap]
  congr 1
  funext a
  split_ifs
  · rw [List.map_map]; rfl
  · rfl

theorem movePairs_sorted (L : Labels k) (t : Tabu k) :
    (movePairs adj L t).Pairwise fun p p' => p.1 < p'.1 ∨ p.1 = p'.1 ∧ p.2 < p'.2 := by
  unfold movePairs
  rw [List.pairwise_flatMap]
  refine ⟨fun a _ => ?_, ?_⟩
  · split_ifs
    · rw [List.pairwise_map]
      refine List.Pairwise.imp (R := (· < ·)) (fun h => .inr ⟨rfl, h⟩) ?_
      refine List.Pairwise.filter _ ?_
      unfold neighbors
      exact List.Pairwise.filter _ (List.sortedLT_finRange k).pairwise
    · exact .nil
  · refine (List.sortedLT_finRange k).pairwise.imp fun {a b} hab p hp p' hp' => ?_
    have h1 : ∀ {a : Fin k} {p : Fin k × Fin k}, p ∈ (if isConnected (subAdjWo adj (whereEq L (L a)) [a]) &&
        decide (count (arrayList L) (L a) > 1) then
      ((neighbors adj a).filter fun neigh =>
        decide (L neigh ≠ L a) && !t.items.contains ⟨a, L a, L neigh⟩).map fun u => (a, u)
      else []) → p.1 = a := by
      intro a p hp
      split_ifs at hp
      · obtain ⟨u, -, rfl⟩ := List.mem_map.1 hp
        rfl
      · cases hp
    left
    rw [h1 hp, h1 hp']
    exact hab

theorem mem_movePairs {L : Labels k} {t : Tabu k} {a u : Fin k} :
    (a, u) ∈ movePairs adj L t ↔ adj a u = true ∧ (⟨a, L a, L u⟩ : Move k) ∈ possibleMoves adj L t := by
  constructor
  · intro h
    refine ⟨?_, by rw [possibleMoves_eq]; exact List.mem_map.2 ⟨_, h, rfl⟩⟩
    unfold movePairs at h
    simp only [List.mem_flatMap, List.mem_finRange, true_and] at h
    obtain ⟨b, h⟩ := h
    split_ifs at h
    · obtain ⟨v, hv, h⟩ := List.mem_map.1 h
      cases h
      exact mem_neighbors.1 (List.mem_filter.1 hv).1
    · cases h
  · rintro ⟨hau, h⟩
    rw [possibleMoves_eq] at h
    obtain ⟨⟨b, v⟩, h1, e⟩ := List.mem_map.1 h
    dsimp only at e
    rw [Move.mk.injEq] at e
    obtain ⟨rfl, -, e⟩ := e
    unfold movePairs at h1 ⊢
    simp only [List.mem_flatMap, List.mem_finRange, true_and] at h1 ⊢
    obtain ⟨c, h1⟩ := h1
    by_cases hc : (isConnected (subAdjWo adj (whereEq L (L c)) [c]) &&
        decide (count (arrayList L) (L c) > 1)) = true
    · rw [if_pos hc] at h1
      obtain ⟨w, hw, h2⟩ := List.mem_map.1 h1
      cases h2
      refine ⟨b, ?_⟩
      rw [if_pos hc]
      refine List.mem_map.2 ⟨u, List.mem_filter.2 ⟨mem_neighbors.2 hau, ?_⟩, rfl⟩
      rw [← e]
      exact (List.mem_filter.1 hw).2
    · rw [if_neg hc] at h1
      cases h1

/-- The best move is the first with its difference. -/
theorem bestMove_first {obj : Objective ρ} {L : Labels k} : ∀ {ms : List (Move k)} {i : Nat}
    {best : Option (Nat × Move k × ℚ)} {j : Nat} {m : Move k} {d : ℚ},
    bestMove obj attr L ms i best = .ok (some (j, m, d)) →
    best = some (j, m, d) ∨ (∀ x, best = some x → d < x.2.2) ∧ ∃ pre post, ms = pre ++ m :: post ∧
      ∀ m' ∈ pre, ∀ d', obj.update m'.area m'.new L attr = some d' → d < d' := by
  intro ms
  induction ms with
  | nil =>
    intro i best j m d h
    unfold bestMove at h
    cases h
    exact .inl rfl
  | cons m0 ms ih =>
    intro i best j m d h
    unfold bestMove at h
    rw [Res.bind_eq_ok] at h
    obtain ⟨d0, h1, h2⟩ := h
    have hd0 : obj.update m0.area m0.new L attr = some d0 := by
      unfold updateOf at h1
      split at h1
      · cases h1
      · rename_i heq; cases h1; exact heq
    have hcons : ∀ {pre : List (Move k)}, d < d0 →
        (∀ m' ∈ pre, ∀ d', obj.update m'.area m'.new L attr = some d' → d < d') →
        ∀ m' ∈ m0 :: pre, ∀ d', obj.update m'.area m'.new L attr = some d' → d < d' := by
      intro pre hlt hpre m' hm' d' hd'
      rcases List.mem_cons.1 hm' with rfl | hm'
      · rw [hd0] at hd'; cases hd'; exact hlt
      · exact hpre m' hm' d' hd'
    cases best with
    | none =>
      dsimp only at h2
      rcases ih h2 with h3 | ⟨h3, pre, post, rfl, h4⟩
      · cases h3
        exact .inr ⟨by simp, [], ms, rfl, by simp⟩
      · exact .inr ⟨by simp, m0 :: pre, post, rfl, hcons (h3 _ rfl) h4⟩
    | some x =>
      obtain ⟨j', m', d'⟩ := x
      dsimp only at h2
      split_ifs at h2 with hlt
      · rcases ih h2 with h3 | ⟨h3, pre, post, rfl, h4⟩
        · cases h3
          exact .inr ⟨by rintro _ ⟨⟩; exact hlt, [], ms, rfl, by simp⟩
        · have := h3 _ rfl
          exact .inr ⟨by rintro _ ⟨⟩; exact this.trans hlt, m0 :: pre, post, rfl, hcons this h4⟩
      · rcases ih h2 with h3 | ⟨h3, pre, post, rfl, h4⟩
        · exact .inl h3
        · have := h3 _ rfl
          exact .inr ⟨by rintro _ ⟨⟩; exact this, m0 :: pre, post, rfl,
            hcons (lt_of_lt_of_le this (not_lt.1 hlt)) h4⟩

theorem earlier_asymm {V : Type} [Preorder V] {adj : V → V → Bool} {x : Search V} {m m' : Shift V} (h : Earlier adj x m m')
    (h' : Earlier adj x m' m) : False := by
  rcases h with h | ⟨e, u, h1, h2, h3⟩ <;> rcases h' with h' | ⟨e', u', h1', h2', h3'⟩
  · exact lt_asymm h h'
  · exact absurd (e' ▸ h) (lt_irrefl _)
  · exact absurd (e ▸ h') (lt_irrefl _)
  · rw [e] at h3 h1
    exact lt_asymm (h3 u' h1' h2') (h3' u h1 h2)

theorem best_unique {V : Type} [Preorder V] [DecidableEq V] {adj : V → V → Bool} {value : (V → Int) → ℚ}
    {len : Option Nat} {x : Search V} {m m' : Shift V}
    (h : Best adj value len x m) (h' : Best adj value len x m') : m = m' := by
  rcases h.2 m' h'.1 with rfl | h1 | ⟨h1, h2⟩
  · rfl
  · rcases h'.2 m h.1 with rfl | h3 | ⟨h3, h4⟩
    · rfl
    · exact absurd h1 (lt_asymm h3)
    · rw [h3] at h1; exact absurd h1 (lt_irrefl _)
  · rcases h'.2 m h.1 with rfl | h3 | ⟨h3, h4⟩
    · rfl
    · rw [h1] at h3; exact absurd h3 (lt_irrefl _)
    · exact (earlier_asymm h2 h4).elim

/-- The variables of the program show a search. -/
structure Shows {n q : Nat} (len : Option Nat) (x : Search (Fin k)) (s : TabuState (Strat n q) k) : Prop where
  labels : s.labels = x.labels
  maxlen : s.tabu.maxlen = len
  tabu : s.tabu.items.map Move.shift = latest len x.barred
  seen : s.visited = x.seen.map arrayList
  stop : s.stop = true ↔ x.due
  strat : ∃ v, s.strat = .azp v

section
variable {n q : Nat} {len : Option Nat} {x y z : Search (Fin k)} {s : TabuState (Strat n q) k}

theorem Shows.mem (h : Shows len x s) {m : Move k} : m ∈ s.tabu.items ↔ Forbidden len x m.shift := by
  rw [forbidden_iff, ← h.tabu, List.mem_map]
  constructor
  · exact fun hm => ⟨m, hm, rfl⟩
  · rintro ⟨m', hm', e⟩
    rwa [← Move.shift_inj e]

theorem Shows.rng (h : Shows len x s) (r : Rng) : Shows len x { s with rng := r } :=
  ⟨h.labels, h.maxlen, h.tabu, h.seen, h.stop, h.strat⟩

theorem Shows.note (h : Shows len x s) (reps : Int) : Shows len (noted reps x) (noteVisit reps s) := by
  refine ⟨h.labels, h.maxlen, h.tabu, ?_, ?_, h.strat⟩
  · unfold noteVisit noted
    dsimp only
    rw [h.seen, h.labels, List.map_append, List.map_cons, List.map_nil]
  · unfold noteVisit noted
    dsimp only
    rw [h.seen, h.labels, count_seen, Bool.or_eq_true, h.stop, decide_eq_true_eq]
    have : ∀ i j : DecidableEq (Fin k → Int), @List.count _ (@instBEqOfDecidableEq _ i) x.labels x.seen =
        @List.count _ (@instBEqOfDecidableEq _ j) x.labels x.seen := fun i j => by rw [Subsingleton.elim i j]
    rw [this]

theorem Shows.open_iff (h : Shows len x s) (hs : Spec.Symmetric adj) {m : Move k} :
    m ∈ possibleMoves adj s.labels s.tabu ↔ Open adj len x m.shift := by
  rw [mem_possibleMoves hs, h.mem, h.labels]
  rfl

theorem Shows.append (h : Shows len x s) {a : Fin k} {r : Int} {st : Strat n q} (hst : ∃ v, st = .azp v)
    {L : Labels k} {rng : Rng} : Shows len ⟨L, x.barred ++ [⟨a, r, x.labels a⟩], x.seen, x.due⟩
      { s with labels := L, tabu := s.tabu.append ⟨a, r, s.labels a⟩, strat := st, rng := rng } := by
  refine ⟨rfl, ?_, ?_, h.seen, h.stop, hst⟩
  · dsimp only
    rw [Tabu.append_maxlen, h.maxlen]
  · dsimp only
    rw [latest_append, ← h.tabu]
    unfold Tabu.append
    rw [h.maxlen]
    cases len with
    | none => rw [List.map_append, h.labels]; rfl
    | some l =>
      rw [List.map_drop, List.map_append, List.length_map, h.labels]
      rfl

/-! ### Rounds -/

variable {init : Labels k} {reps : Int} {expf : ℚ → ℚ} {idx : Fin k → Fin n}

/-- The invariant with the default strategy. -/
abbrev AzpInv (adj : Adj k) (init : Labels k) (s : TabuState (Strat n q) k) : Prop :=
  TabuInv adj (fun st : Strat n q => ∃ v, st = .azp v) init s

section
variable (hsym : ∀ x y, metric x y = metric y x) (h0 : ∀ x, metric x x = 0)
include hsym h0

theorem pairwise_value {L : Labels k} {a : Fin k} {r : Int} {d : ℚ}
    (h : (pairwise metric).update a r L attr = some d) :
    (d ≤ 0 ↔ (pairwise metric).call (moved L a r) attr ≤ (pairwise metric).call L attr) ∧
    (d < 0 ↔ (pairwise metric).call (moved L a r) attr < (pairwise metric).call L attr) := by
  rw [pairwise_exact hsym h0 a r L attr d h]
  constructor <;> constructor <;> intro h <;> linarith

omit hsym h0 in
/-- An exact update has the sign of the change. -/
theorem exact_value {obj : Objective ρ} (he : obj.Exact) {L : Labels k} {a : Fin k} {r : Int} {d : ℚ}
    (h : obj.update a r L attr = some d) :
    (d ≤ 0 ↔ obj.call (moved L a r) attr ≤ obj.call L attr) ∧
    (d < 0 ↔ obj.call (moved L a r) attr < obj.call L attr) := by
  rw [he a r L attr d h]
  constructor <;> constructor <;> intro h <;> linarith

omit hsym h0 in
/-- The search for the best move finds the best move. -/
theorem bestMove_best {obj : Objective ρ} (he : obj.Exact) (ht : obj.Total) (hs : Spec.Symmetric adj) (hx : Shows len x s) :
    ∃ b, bestMove obj attr s.labels (possibleMoves adj s.labels s.tabu) 0 none = .ok b ∧
      ((b = none ∧ ∀ m, ¬ Open adj len x m) ∨ ∃ j m d, b = some (j, m, d) ∧
        obj.update m.area m.new s.labels attr = some d ∧
        Best adj (fun L => obj.call L attr) len x m.shift ∧
        Admissible adj s.labels m.area m.new) := by
  have hupd : ∀ m ∈ possibleMoves adj s.labels s.tabu,
      ∃ d, obj.update m.area m.new s.labels attr = some d := by
    intro m hm
    obtain ⟨_, ⟨_, ⟨u, hu, _⟩, ⟨w, hw, hw'⟩, _⟩, _⟩ := possibleMoves_admissible hm
    exact ht _ _ _ _ ⟨u, hu⟩ ⟨w, hw, hw'⟩
  obtain ⟨b, hb, hpost⟩ := (bestMove_post (attr := attr) (obj := obj) hupd 0 none).total
  refine ⟨b, hb, ?_⟩
  rcases b with _ | ⟨j, m, d⟩
  · left
    refine ⟨rfl, fun m hm => ?_⟩
    have : Move.ofShift m ∈ possibleMoves adj s.labels s.tabu := (hx.open_iff hs).2 hm
    rw [hpost.2] at this
    cases this
  · right
    obtain ⟨h1, h2, -⟩ := hpost
    obtain ⟨-, hj, hd⟩ := h1.resolve_left (by simp)
    have hm := List.mem_of_getElem? hj
    refine ⟨j, m, d, rfl, hd, ⟨(hx.open_iff hs).1 hm, fun m' hm' => ?_⟩, (possibleMoves_admissible hm).2.1⟩
    have hmem : Move.ofShift m' ∈ possibleMoves adj s.labels s.tabu := (hx.open_iff hs).2 hm'
    obtain ⟨d', hd'⟩ := hupd _ hmem
    have hle := h2 _ hmem _ hd'
    have e1 := he _ _ _ attr _ hd
    have e2 := he _ _ _ attr _ hd'
    rw [hx.labels] at e1 e2
    change obj.call (moved x.labels m'.area m'.new) attr = _ at e2
    by_cases hne : m' = m.shift
    · exact .inl hne
    right
    dsimp only [Move.shift]
    rw [e1, e2]
    rcases lt_or_eq_of_le hle with hlt | heq
    · left; linarith
    right
    refine ⟨by rw [heq], ?_⟩
    obtain ⟨pre, post, hl, hpre⟩ := ((bestMove_first hb).resolve_left (by simp)).2
    have hnot : ∀ m'' ∈ pre, m''.shift ≠ m.shift ∧ m''.shift ≠ m' := by
      intro m'' hm''
      refine ⟨fun e => ?_, fun e => ?_⟩
      · rw [Move.shift_inj e] at hm''
        exact lt_irrefl _ (hpre m hm'' d hd)
      · have : m'' = Move.ofShift m' := Move.shift_inj e
        rw [this] at hm''
        have := hpre _ hm'' d' hd'
        linarith
    rw [possibleMoves_eq] at hl
    obtain ⟨pre1, rest, hp1, hp2, hp3⟩ := List.map_eq_append_iff.1 hl
    obtain ⟨⟨a, u⟩, post1, rfl, hp4, hp5⟩ := List.map_eq_cons_iff.1 hp3
    dsimp only at hp4
    have hsort := movePairs_sorted (adj := adj) s.labels s.tabu
    rw [hp1] at hsort
    have hpost1 := (List.pairwise_append.1 hsort).2.1
    have hafter : ∀ u', adj m'.area u' = true → x.labels u' = m'.new →
        a < m'.area ∨ a = m'.area ∧ u < u' := by
      intro u' hu' hl'
      have hold : s.labels m'.area = m'.old := by rw [hx.labels]; exact hm'.1.symm
      have hin : (m'.area, u') ∈ movePairs adj s.labels s.tabu := by
        refine mem_movePairs.2 ⟨hu', ?_⟩
        rw [show (⟨m'.area, s.labels m'.area, s.labels u'⟩ : Move k) = Move.ofShift m' by
          unfold Move.ofShift; rw [hold, hx.labels, hl']]
        exact hmem
      have hf : (⟨m'.area, s.labels m'.area, s.labels u'⟩ : Move k).shift = m' := by
        unfold Move.shift; rw [hold, hx.labels, hl']
      rw [hp1] at hin
      rcases List.mem_append.1 hin with h | h
      · exact absurd hf (hnot _ (by rw [← hp2]; exact List.mem_map.2 ⟨_, h, rfl⟩)).2
      · rcases List.mem_cons.1 h with h | h
        · cases h
          exact absurd (by rw [← hf, hp4]) hne
        · exact List.rel_of_pairwise_cons hpost1 h
    have hau : adj a u = true := (mem_movePairs.1 (by rw [hp1]; simp)).1
    have hma : m.area = a := by rw [← hp4]
    have hmu : m.new = x.labels u := by rw [← hp4, hx.labels]
    obtain ⟨w, hw1, hw2⟩ := hm'.2.1.2.1
    have hw : adj m'.area w = true := by
      rcases hw2 with h | h
      · rw [hs]; exact h
      · exact h
    unfold Earlier
    dsimp only
    rw [hma, hmu]
    rcases hafter w hw hw1 with h | ⟨h, -⟩
    · exact .inl h
    · refine .inr ⟨h, u, hau, rfl, fun u' hu' hl' => ?_⟩
      rw [h] at hu'
      rcases hafter u' hu' hl' with h' | ⟨-, h'⟩
      · exact absurd (h ▸ h') (lt_irrefl _)
      · exact h'

omit hsym h0 in
theorem sent_unique {V : Type} [DecidableEq V] {adj : V → V → Bool} {x y z : Search V} {a : V} {r : Int}
    (h : Sent adj a r x y) (h' : Sent adj a r x z) : y = z := by
  obtain ⟨h1, h2, h3, h4, h5⟩ := h
  obtain ⟨h1', h2', h3', h4', h5'⟩ := h'
  have : y.labels = z.labels := by
    by_cases hc : AllContiguous adj (moved x.labels a r)
    · rw [h4 hc, h4' hc]
    · rw [h5 hc, h5' hc]
  cases y; cases z
  simp_all

omit hsym h0 in
/-- A move the strategy allows. -/
theorem tryMove_sent {obj : Objective ρ} (hx : Shows len x s) (hc : AllContiguous adj s.labels) {m : Move k}
    {d : ℚ} (hd : obj.update m.area m.new s.labels attr = some d) (hle : d ≤ 0) :
    ∃ y s', Sent adj m.area m.new x y ∧ Shows len y s' ∧ ∀ r,
      tryMove (Strat.ops expf idx attr obj) adj m { s with rng := r } = .ok (true, { s' with rng := r }) := by
  obtain ⟨v, hv⟩ := hx.strat
  obtain ⟨b, L', h1, h2, h3, h4, -⟩ := tabuMakeMove_spec m.area m.new hc s.tabu
  refine ⟨⟨L', x.barred ++ [⟨m.area, m.new, x.labels m.area⟩], x.seen, x.due⟩, _,
    ⟨rfl, rfl, rfl, fun h => ?_, fun h => ?_⟩, hx.append (a := m.area) (r := m.new) (st := .azp (v + d))
      ⟨_, rfl⟩ (L := L') (rng := fun _ => 0), fun r => ?_⟩
  · rw [← hx.labels] at h ⊢
    exact h3 (h2.2 h)
  · rw [← hx.labels] at h ⊢
    refine h4 ?_
    cases b with
    | true => exact absurd (h2.1 rfl) h
    | false => rfl
  · unfold tryMove Strat.ops
    dsimp only
    unfold Strat.call
    rw [hv]
    dsimp only
    rw [hd]
    dsimp only
    rw [if_pos hle, Res.bind_ok]
    dsimp only
    rw [if_pos rfl, h1, Res.bind_ok]

omit hsym h0 in
/-- A move the strategy does not allow. -/
theorem tryMove_refused {obj : Objective ρ} (hx : Shows len x s) {m : Move k}
    {d : ℚ} (hd : obj.update m.area m.new s.labels attr = some d) (hlt : 0 < d) (r : Rng) :
    tryMove (Strat.ops expf idx attr obj) adj m { s with rng := r } = .ok (false, { s with rng := r }) := by
  obtain ⟨v, hv⟩ := hx.strat
  unfold tryMove Strat.ops
  dsimp only
  unfold Strat.call
  rw [hv]
  dsimp only
  rw [hd]
  dsimp only
  rw [if_neg (not_le.2 hlt), Res.bind_ok]
  dsimp only
  rw [if_neg (by simp), ← hv]

/-- The improving tabu moves. -/
theorem improvingTabus_aspirant (hx : Shows len x s) (hi : AzpInv adj init s) :
    ∃ moves, improvingTabus (pairwise metric) attr s.labels s.tabu.items = .ok moves ∧ ∀ m, m ∈ moves ↔
      Aspirant (fun L => (pairwise metric).call L attr) len x m.shift := by
  have hupd : ∀ m ∈ s.tabu.items, ∃ d, (pairwise metric).update m.area m.new s.labels attr = some d := by
    intro m hm
    obtain ⟨u, hu⟩ := (hi.image m.new).2 (hi.tabu m hm)
    exact ⟨_, pairwise_update_iff.2 ⟨⟨u, hu⟩, rfl⟩⟩
  obtain ⟨moves, h1, h2⟩ := (improvingTabus_post (obj := pairwise metric) (attr := attr) (L := s.labels)
    (ms := s.tabu.items) fun m hm _ => hupd m hm).total
  refine ⟨moves, h1, fun m => ?_⟩
  rw [h2]
  unfold Aspirant
  rw [← hx.mem, ← hx.labels]
  refine and_congr_right fun hm => and_congr_right fun _ => ?_
  obtain ⟨d, hd⟩ := hupd m hm
  dsimp only [Move.shift]
  rw [← (pairwise_value hsym h0 hd).2]
  constructor
  · rintro ⟨d', h1, h2⟩
    rw [hd] at h1; cases h1; exact h2
  · exact fun h => ⟨d, hd, h⟩

/-- Step 3 as the specification says. -/
theorem aspiration_aspired (hx : Shows len x s) (hi : AzpInv adj init s) {s' : TabuState (Strat n q) k}
    (h : aspiration (Strat.ops expf idx attr (pairwise metric)) (pairwise metric) attr adj s = .ok s') :
    ∃ y, Aspired adj (fun L => (pairwise metric).call L attr) len x y ∧ Shows len y s' := by
  obtain ⟨moves, h1, h2⟩ := improvingTabus_aspirant hsym h0 (attr := attr) hx hi
  unfold aspiration at h
  rw [h1, Res.bind_ok] at h
  split_ifs at h with hnil
  · cases h
    refine ⟨x, .inl ⟨rfl, fun m hm => ?_⟩, hx⟩
    have := (h2 (Move.ofShift m)).2 hm
    rw [hnil] at this
    cases this
  · obtain ⟨m, hm, hr⟩ := randomElementFrom_ne_nil hnil s.rng
    rw [hr, Res.bind_ok, Res.bind_eq_ok] at h
    obtain ⟨⟨b, s1⟩, h3, h4⟩ := h
    cases h4
    have hasp := (h2 m).1 hm
    obtain ⟨u, hu⟩ := (hi.image m.new).2 (hi.tabu m (hx.mem.2 hasp.1))
    have hd := pairwise_update_iff (metric := metric) (attr := attr) (a := m.area) (r := m.new).2 ⟨⟨u, hu⟩, rfl⟩
    have hneg := (pairwise_value hsym h0 hd).2.2 (by rw [hx.labels]; exact hasp.2.2)
    obtain ⟨y, s', g1, g2, g3⟩ := tryMove_sent (expf := expf) (idx := idx) hx hi.cont hd hneg.le
    rw [g3] at h3
    cases h3
    exact ⟨y, .inr ⟨_, hasp, g1⟩, g2.rng _⟩

theorem aspired_aspiration (hx : Shows len x s) (hi : AzpInv adj init s)
    (h : Aspired adj (fun L => (pairwise metric).call L attr) len x y) :
    ∃ s', Shows len y s' ∧ ∀ r', ∃ r0, aspiration (Strat.ops expf idx attr (pairwise metric))
      (pairwise metric) attr adj { s with rng := r0 } = .ok { s' with rng := r' } := by
  obtain ⟨moves, h1, h2⟩ := improvingTabus_aspirant hsym h0 (attr := attr) hx hi
  rcases h with ⟨rfl, h⟩ | ⟨m, hm, hsent⟩
  · refine ⟨s, hx, fun r' => ⟨r', ?_⟩⟩
    unfold aspiration
    rw [h1, Res.bind_ok, if_pos (List.eq_nil_iff_forall_not_mem.2 fun m hm => h _ ((h2 m).1 hm))]
  · have hmem := (h2 (Move.ofShift m)).2 hm
    obtain ⟨u, hu⟩ := (hi.image m.new).2 (hi.tabu (Move.ofShift m) (hx.mem.2 hm.1))
    have hd := pairwise_update_iff (metric := metric) (attr := attr) (a := m.area) (r := m.new).2 ⟨⟨u, hu⟩, rfl⟩
    have hneg := (pairwise_value hsym h0 hd).2.2 (by rw [hx.labels]; exact hm.2.2)
    obtain ⟨y', s', g1, g2, g3⟩ := tryMove_sent (expf := expf) (idx := idx) (m := Move.ofShift m) hx hi.cont
      hd hneg.le
    cases sent_unique hsent g1
    refine ⟨s', g2, fun r' => ?_⟩
    obtain ⟨r0, hr⟩ := randomElementFrom_any hmem r'
    refine ⟨r0, ?_⟩
    unfold aspiration
    rw [h1, Res.bind_ok, if_neg (List.ne_nil_of_mem hmem), hr, Res.bind_ok]
    dsimp only
    rw [g3, Res.bind_ok]

omit hsym h0 in
theorem aspired_due {value : (Fin k → Int) → ℚ} (h : Aspired adj value len x y) : y.due = x.due := by
  rcases h with ⟨rfl, -⟩ | ⟨m, -, h⟩
  · rfl
  · exact h.2.2.1

/-- What the search for the best move found, in terms of the specification. -/
def Found (adj : Adj k) (metric : ρ → ρ → ℚ) (attr : Fin k → ρ) (len : Option Nat) (x : Search (Fin k)) :
    Option (Nat × Move k × ℚ) → Prop
  | none => ∀ m, ¬ Open adj len x m
  | some (_, m, _) => Best adj (fun L => (pairwise metric).call L attr) len x m.shift ∧
      Admissible adj x.labels m.area m.new

/-- The last step of a round. -/
theorem retry (hx : Shows len x s) (hi : AzpInv adj init s) {t : TabuState (Strat n q) k} (hz : Shows len z t)
    (ht : AzpInv adj init t) {m : Move k}
    (hm : Best adj (fun L => (pairwise metric).call L attr) len x m.shift ∧ Admissible adj x.labels m.area m.new) :
    ∃ y t', Retried adj (fun L => (pairwise metric).call L attr) len x z y ∧ Shows len y t' ∧
      ∃ b, ∀ r, tryMove (Strat.ops expf idx attr (pairwise metric)) adj m { t with rng := r } =
        .ok (b, { t' with rng := r }) := by
  obtain ⟨u, hu, -⟩ := hm.2.2.1
  have himg : ∃ i, s.labels i = m.new := by rw [hx.labels]; exact ⟨u, hu⟩
  obtain ⟨u', hu'⟩ := (ht.image m.new).2 ((hi.image m.new).1 himg)
  have hd := pairwise_update_iff (metric := metric) (attr := attr) (a := m.area) (r := m.new).2 ⟨⟨u', hu'⟩, rfl⟩
  have hv := (pairwise_value hsym h0 hd).1
  rcases le_or_gt ((pairwise metric).call (moved t.labels m.area m.new) attr)
    ((pairwise metric).call t.labels attr) with hle | hlt
  · obtain ⟨y, t', g1, g2, g3⟩ := tryMove_sent (expf := expf) (idx := idx) hz ht.cont hd (hv.2 hle)
    refine ⟨y, t', .inl ⟨m.shift, hm.1, ?_, g1⟩, g2, true, g3⟩
    rw [← hz.labels]
    exact hle
  · refine ⟨z, t, .inr ⟨fun m' hm' => ?_, rfl⟩, hz, false, fun r => tryMove_refused hz hd
      (not_le.1 fun h => absurd (hv.1 h) (not_le.2 hlt)) r⟩
    cases best_unique hm' hm.1
    rw [← hz.labels]
    exact hlt

omit hsym h0 in
theorem retried_unique {V : Type} [Preorder V] [DecidableEq V] {adj : V → V → Bool} {value : (V → Int) → ℚ}
    {x y z y' : Search V} (h : Retried adj value len x z y)
    (h' : Retried adj value len x z y') : y = y' := by
  rcases h with ⟨m, h1, h2, h3⟩ | ⟨h1, rfl⟩ <;> rcases h' with ⟨m', h1', h2', h3'⟩ | ⟨h1', rfl⟩
  · cases best_unique h1 h1'
    exact sent_unique h3 h3'
  · exact absurd h2 (not_le.2 (h1' m h1))
  · exact absurd h2' (not_le.2 (h1 m' h1'))
  · rfl

section
variable (hp : ∀ x y, 0 ≤ metric x y)
include hp

/-- Steps 3 and 4. -/
theorem basicElse_sound (hx : Shows len x s) (hi : AzpInv adj init s) {b : Option (Nat × Move k × ℚ)}
    (hb : Found adj metric attr len x b) {done : Bool} {s' : TabuState (Strat n q) k}
    (h : basicElse (Strat.ops expf idx attr (pairwise metric)) (pairwise metric) attr adj b s =
      .ok (done, s')) :
    ∃ z, Aspired adj (fun L => (pairwise metric).call L attr) len x z ∧
      ((done = true ∧ x.due ∧ Shows len z s') ∨ (done = false ∧ ¬ x.due ∧
        ∃ y, Retried adj (fun L => (pairwise metric).call L attr) len x z y ∧ Shows len y s')) := by
  unfold basicElse at h
  rw [Res.bind_eq_ok] at h
  obtain ⟨t, ht, h⟩ := h
  obtain ⟨z, hz, hsz⟩ := aspiration_aspired hsym h0 hx hi ht
  have hti : AzpInv adj init t :=
    ((aspiration_post hp h0 (azp_nonWorsening expf idx attr (pairwise metric)) hi).ok ht).1
  have hdue := aspired_due hz
  refine ⟨z, hz, ?_⟩
  by_cases hst : t.stop = true
  · rw [if_pos hst] at h
    cases h
    exact .inl ⟨rfl, hdue ▸ hsz.stop.1 hst, hsz⟩
  · rw [if_neg hst] at h
    have hnd : ¬ x.due := fun hd => hst (hsz.stop.2 (hdue ▸ hd))
    rcases b with _ | ⟨j, m, d⟩
    · cases h
      exact .inr ⟨rfl, hnd, z, .inr ⟨fun m hm => absurd hm.1 (hb m), rfl⟩, hsz⟩
    · dsimp only at h
      obtain ⟨y, t', g1, g2, b, g3⟩ := retry (expf := expf) (idx := idx) hsym h0 hx hi hsz hti hb
      have h3 := g3 t.rng
      rw [show ({ t with rng := t.rng } : TabuState (Strat n q) k) = t from rfl] at h3
      rw [h3, Res.bind_ok] at h
      cases h
      exact .inr ⟨rfl, hnd, y, g1, g2.rng _⟩

theorem basicElse_complete (hx : Shows len x s) (hi : AzpInv adj init s) {b : Option (Nat × Move k × ℚ)}
    (hb : Found adj metric attr len x b)
    (hz : Aspired adj (fun L => (pairwise metric).call L attr) len x z) :
    (x.due → ∃ s', Shows len z s' ∧ ∀ r', ∃ r0,
      basicElse (Strat.ops expf idx attr (pairwise metric)) (pairwise metric) attr adj b
        { s with rng := r0 } = .ok (true, { s' with rng := r' })) ∧
    (¬ x.due → ∀ y, Retried adj (fun L => (pairwise metric).call L attr) len x z y →
      ∃ s', Shows len y s' ∧ ∀ r', ∃ r0,
      basicElse (Strat.ops expf idx attr (pairwise metric)) (pairwise metric) attr adj b
        { s with rng := r0 } = .ok (false, { s' with rng := r' })) := by
  obtain ⟨t, hsz, ht⟩ := aspired_aspiration (expf := expf) (idx := idx) hsym h0 hx hi hz
  have hti : AzpInv adj init t := by
    obtain ⟨r0, hr⟩ := ht (fun _ => 0)
    have hi0 : AzpInv adj init { s with rng := r0 } := ⟨hi.cont, hi.image, hi.tabu, hi.strat⟩
    have := ((aspiration_post hp h0 (azp_nonWorsening expf idx attr (pairwise metric)) hi0).ok hr).1
    exact ⟨this.cont, this.image, this.tabu, this.strat⟩
  have hdue := aspired_due hz
  constructor
  · intro hd
    refine ⟨t, hsz, fun r' => ?_⟩
    obtain ⟨r0, hr⟩ := ht r'
    refine ⟨r0, ?_⟩
    unfold basicElse
    rw [hr, Res.bind_ok, if_pos (hsz.stop.2 (hdue ▸ hd))]
  · intro hd y hy
    have hst : ¬ t.stop = true := fun h => hd (hdue ▸ hsz.stop.1 h)
    rcases b with _ | ⟨j, m, d⟩
    · have : y = z := by
        rcases hy with ⟨m, hm, -⟩ | ⟨-, rfl⟩
        · exact absurd hm.1 (hb m)
        · rfl
      subst this
      refine ⟨t, hsz, fun r' => ?_⟩
      obtain ⟨r0, hr⟩ := ht r'
      refine ⟨r0, ?_⟩
      unfold basicElse
      rw [hr, Res.bind_ok, if_neg hst]
    · obtain ⟨y', t', g1, g2, b, g3⟩ := retry (expf := expf) (idx := idx) hsym h0 hx hi hsz hti hb
      cases retried_unique hy g1
      refine ⟨t', g2, fun r' => ?_⟩
      obtain ⟨r0, hr⟩ := ht r'
      refine ⟨r0, ?_⟩
      unfold basicElse
      rw [hr, Res.bind_ok, if_neg hst]
      dsimp only
      rw [g3, Res.bind_ok]

omit hp in
/-- The first two steps of a round. -/
theorem basicRound_cases (hs : Spec.Symmetric adj) (hx : Shows len x s) (hi : AzpInv adj init s) :
    (¬ Stuck adj (fun L => (pairwise metric).call L attr) len x ∧
      ∃ y s', Descends adj (fun L => (pairwise metric).call L attr) len x y ∧ Shows len y s' ∧ ∀ r,
      basicRound (Strat.ops expf idx attr (pairwise metric)) (pairwise metric) attr adj { s with rng := r } =
        .ok (false, { s' with rng := r })) ∨
    (Stuck adj (fun L => (pairwise metric).call L attr) len x ∧
      (∀ y, ¬ Descends adj (fun L => (pairwise metric).call L attr) len x y) ∧
      ∃ b, Found adj metric attr len x b ∧ ∀ r,
      basicRound (Strat.ops expf idx attr (pairwise metric)) (pairwise metric) attr adj { s with rng := r } =
        basicElse (Strat.ops expf idx attr (pairwise metric)) (pairwise metric) attr adj b { s with rng := r }) := by
  obtain ⟨b, hb, ⟨rfl, hnone⟩ | ⟨j, m, d, rfl, hd, hbest, hadm⟩⟩ :=
    bestMove_best (pairwise_exact hsym h0) (pairwise_total metric) (attr := attr) hs hx
  · refine .inr ⟨fun m hm => absurd hm (hnone m), fun y ⟨m, hm, _⟩ => hnone m hm.1, none, hnone, fun r => ?_⟩
    unfold basicRound
    dsimp only
    rw [hb, Res.bind_ok]
  · have hv := (pairwise_value hsym h0 hd).1
    rw [hx.labels] at hv
    by_cases hle : d ≤ 0
    · obtain ⟨y, s', g1, g2, g3⟩ := tryMove_sent (expf := expf) (idx := idx) hx hi.cont hd hle
      have hns : ¬ Stuck adj (fun L => (pairwise metric).call L attr) len x := fun h =>
        absurd (hv.1 hle) (not_le.2 (h m.shift hbest.1))
      have hdesc : Descends adj (fun L => (pairwise metric).call L attr) len x y :=
        ⟨m.shift, hbest, hv.1 hle, g1⟩
      refine .inl ⟨hns, y, s', hdesc, g2, fun r => ?_⟩
      unfold basicRound
      dsimp only
      rw [hb, Res.bind_ok]
      dsimp only
      rw [if_pos hle, g3, Res.bind_ok]
      dsimp only
      rw [if_pos rfl]
    · have hlt : (pairwise metric).call x.labels attr <
          (pairwise metric).call (moved x.labels m.area m.new) attr := not_le.1 fun h => hle (hv.2 h)
      refine .inr ⟨fun m' hm' => ?_, fun y ⟨m', hm', hle', _⟩ => ?_, some (j, m, d),
        ⟨hbest, by rw [← hx.labels]; exact hadm⟩, fun r => ?_⟩
      · rcases hbest.2 m' hm' with rfl | h | ⟨h, -⟩
        · exact hlt
        · exact lt_trans hlt h
        · exact lt_of_lt_of_eq hlt h
      · cases best_unique hm' hbest
        exact absurd hle' (not_le.2 hlt)
      · unfold basicRound
        dsimp only
        rw [hb, Res.bind_ok]
        dsimp only
        rw [if_neg hle]

/-- A round of the program is a round of the specification. -/
theorem basicRound_sound (hs : Spec.Symmetric adj) (hx : Shows len x s) (hi : AzpInv adj init s) {done : Bool}
    {s' : TabuState (Strat n q) k}
    (h : basicRound (Strat.ops expf idx attr (pairwise metric)) (pairwise metric) attr adj
      (noteVisit reps s) = .ok (done, s')) :
    AzpInv adj init s' ∧
    ((done = true ∧ TabuEnd adj (fun L => (pairwise metric).call L attr) len reps x s'.labels) ∨
      (done = false ∧ ∃ y, TabuRound adj (fun L => (pairwise metric).call L attr) len reps x y ∧
        Shows len y s')) := by
  have hi' : AzpInv adj init (noteVisit reps s) := ⟨hi.cont, hi.image, hi.tabu, hi.strat⟩
  refine ⟨((basicRound_post hp h0 (azp_nonWorsening expf idx attr (pairwise metric)) hi').ok h).1, ?_⟩
  rcases basicRound_cases (attr := attr) (expf := expf) (idx := idx) hsym h0 hs (hx.note reps) hi' with
    ⟨-, y, t, hy, ht, hr⟩ | ⟨hst, -, b, hb, hr⟩
  · have h3 := hr (noteVisit reps s).rng
    rw [show ({ noteVisit reps s with rng := (noteVisit reps s).rng } : TabuState (Strat n q) k) =
      noteVisit reps s from rfl, h] at h3
    cases h3
    exact .inr ⟨rfl, y, .inl hy, ht.rng _⟩
  · have h3 := hr (noteVisit reps s).rng
    rw [show ({ noteVisit reps s with rng := (noteVisit reps s).rng } : TabuState (Strat n q) k) =
      noteVisit reps s from rfl, h] at h3
    obtain ⟨z, hz, ⟨rfl, hd, hsz⟩ | ⟨rfl, hd, y, hy, hsy⟩⟩ :=
      basicElse_sound hsym h0 hp (hx.note reps) hi' hb h3.symm
    · exact .inl ⟨rfl, hst, hd, z, hz, hsz.labels⟩
    · exact .inr ⟨rfl, y, .inr ⟨hst, hd, z, hz, hy⟩, hsy⟩

theorem basicRound_end (hs : Spec.Symmetric adj) (hx : Shows len x s) (hi : AzpInv adj init s) {L : Labels k}
    (h : TabuEnd adj (fun L => (pairwise metric).call L attr) len reps x L) :
    ∃ s' : TabuState (Strat n q) k, s'.labels = L ∧ (∃ v, s'.strat = .azp v) ∧ ∀ r', ∃ r0,
      basicRound (Strat.ops expf idx attr (pairwise metric)) (pairwise metric) attr adj
        (noteVisit reps { s with rng := r0 }) = .ok (true, { s' with rng := r' }) := by
  have hi' : AzpInv adj init (noteVisit reps s) := ⟨hi.cont, hi.image, hi.tabu, hi.strat⟩
  obtain ⟨hst, hd, z, hz, rfl⟩ := h
  rcases basicRound_cases (attr := attr) (expf := expf) (idx := idx) hsym h0 hs (hx.note reps) hi' with
    ⟨hn, -⟩ | ⟨-, -, b, hb, hr⟩
  · exact absurd hst hn
  · obtain ⟨s', hs', hc⟩ := (basicElse_complete (expf := expf) (idx := idx) hsym h0 hp (hx.note reps) hi' hb
      hz).1 hd
    refine ⟨s', hs'.labels, hs'.strat, fun r' => ?_⟩
    obtain ⟨r0, h0⟩ := hc r'
    exact ⟨r0, (hr r0).trans h0⟩

theorem basicRound_next (hs : Spec.Symmetric adj) (hx : Shows len x s) (hi : AzpInv adj init s)
    (h : TabuRound adj (fun L => (pairwise metric).call L attr) len reps x y) :
    ∃ s' : TabuState (Strat n q) k, Shows len y s' ∧ AzpInv adj init s' ∧ ∀ r', ∃ r0,
      basicRound (Strat.ops expf idx attr (pairwise metric)) (pairwise metric) attr adj
        (noteVisit reps { s with rng := r0 }) = .ok (false, { s' with rng := r' }) := by
  have hi' : AzpInv adj init (noteVisit reps s) := ⟨hi.cont, hi.image, hi.tabu, hi.strat⟩
  have key : ∀ s' : TabuState (Strat n q) k, Shows len y s' → (∀ r', ∃ r0,
      basicRound (Strat.ops expf idx attr (pairwise metric)) (pairwise metric) attr adj
        (noteVisit reps { s with rng := r0 }) = .ok (false, { s' with rng := r' })) →
      ∃ s' : TabuState (Strat n q) k, Shows len y s' ∧ AzpInv adj init s' ∧ ∀ r', ∃ r0,
      basicRound (Strat.ops expf idx attr (pairwise metric)) (pairwise metric) attr adj
        (noteVisit reps { s with rng := r0 }) = .ok (false, { s' with rng := r' }) := by
    intro s' h1 h2
    obtain ⟨r0, hr⟩ := h2 s'.rng
    have hi0 : AzpInv adj init (noteVisit reps { s with rng := r0 }) := ⟨hi.cont, hi.image, hi.tabu, hi.strat⟩
    exact ⟨s', h1, ((basicRound_post hp h0 (azp_nonWorsening expf idx attr (pairwise metric)) hi0).ok hr).1, h2⟩
  rcases basicRound_cases (attr := attr) (expf := expf) (idx := idx) hsym h0 hs (hx.note reps) hi' with
    ⟨hn, y', t, hy', ht, hr⟩ | ⟨hst, hnd, b, hb, hr⟩
  · rcases h with hy | ⟨hst, -⟩
    · have : y = y' := by
        obtain ⟨m, h1, -, h2⟩ := hy
        obtain ⟨m', h1', -, h2'⟩ := hy'
        cases best_unique h1 h1'
        exact sent_unique h2 h2'
      subst this
      exact key t ht fun r' => ⟨r', hr r'⟩
    · exact absurd hst hn
  · rcases h with hy | ⟨-, hd, z, hz, hy⟩
    · exact absurd hy (hnd y)
    · obtain ⟨s', hs', hc⟩ := (basicElse_complete (expf := expf) (idx := idx) hsym h0 hp (hx.note reps) hi' hb
        hz).2 hd y hy
      refine key s' hs' fun r' => ?_
      obtain ⟨r0, h0⟩ := hc r'
      exact ⟨r0, (hr r0).trans h0⟩

/-! ### Loops -/

/-- The search ends with `L` within some number of rounds. -/
inductive TabuRunN {V : Type} [LT V] [DecidableEq V] (adj : V → V → Bool) (value : (V → Int) → ℚ)
    (len : Option Nat) (reps : Int) : Nat → Search V → (V → Int) → Prop
  | stop {F : Nat} {x : Search V} {L : V → Int} (h : TabuEnd adj value len reps x L) :
    TabuRunN adj value len reps (F + 1) x L
  | next {F : Nat} {x y : Search V} {L : V → Int} (h : TabuRound adj value len reps x y)
    (t : TabuRunN adj value len reps F y L) : TabuRunN adj value len reps (F + 1) x L

omit hsym h0 hp in
theorem tabuRunN_mono {V : Type} [LT V] [DecidableEq V] {adj : V → V → Bool} {value : (V → Int) → ℚ}
    {F F' : Nat} (hF : F ≤ F') {x : Search V} {L : V → Int} (h : TabuRunN adj value len reps F x L) :
    TabuRunN adj value len reps F' x L := by
  induction h generalizing F' with
  | stop h =>
    obtain ⟨G, rfl⟩ : ∃ G, F' = G + 1 := ⟨F' - 1, by omega⟩
    exact .stop h
  | next h _ ih =>
    obtain ⟨G, rfl⟩ : ∃ G, F' = G + 1 := ⟨F' - 1, by omega⟩
    exact .next h (ih (by omega))

omit hsym h0 hp in
theorem tabuRun_iff {V : Type} [LT V] [DecidableEq V] {adj : V → V → Bool} {value : (V → Int) → ℚ}
    {x : Search V} {L : V → Int} :
    TabuRun adj value len reps x L ↔ ∃ F, TabuRunN adj value len reps F x L := by
  constructor
  · intro h
    induction h with
    | stop h => exact ⟨1, .stop h⟩
    | next h _ ih => obtain ⟨F, ih⟩ := ih; exact ⟨F + 1, .next h ih⟩
  · rintro ⟨F, h⟩
    induction h with
    | stop h => exact .stop h
    | next h _ ih => exact .next h ih

/-- The loop in terms of the specification … -/
theorem basicLoop_sound (hs : Spec.Symmetric adj) : ∀ (F : Nat) {x : Search (Fin k)}
    {s : TabuState (Strat n q) k}, Shows len x s → AzpInv adj init s → ∀ {s' : TabuState (Strat n q) k},
    basicLoop (Strat.ops expf idx attr (pairwise metric)) (pairwise metric) attr adj reps F s = .ok s' →
    TabuRunN adj (fun L => (pairwise metric).call L attr) len reps F x s'.labels ∧ AzpInv adj init s'
  | 0, x, s, _, _, s', h => by unfold basicLoop at h; cases h
  | F + 1, x, s, hx, hi, s', h => by
    unfold basicLoop at h
    rw [Res.bind_eq_ok] at h
    obtain ⟨⟨done, t⟩, h1, h2⟩ := h
    obtain ⟨hti, ⟨rfl, he⟩ | ⟨rfl, y, hy, hsy⟩⟩ := basicRound_sound hsym h0 hp hs hx hi h1
    · dsimp only at h2
      rw [if_pos rfl] at h2
      cases h2
      exact ⟨.stop he, hti⟩
    · dsimp only at h2
      rw [if_neg (by simp)] at h2
      obtain ⟨h3, h4⟩ := basicLoop_sound hs F hsy hti h2
      exact ⟨.next hy h3, h4⟩

/-- … in both directions. -/
theorem basicLoop_complete (hs : Spec.Symmetric adj) {F : Nat} {x : Search (Fin k)} {L : Labels k}
    (h : TabuRunN adj (fun L => (pairwise metric).call L attr) len reps F x L) :
    ∀ {s : TabuState (Strat n q) k}, Shows len x s → AzpInv adj init s →
    ∃ s' : TabuState (Strat n q) k, s'.labels = L ∧ (∃ v, s'.strat = .azp v) ∧ ∀ r', ∃ r0,
      basicLoop (Strat.ops expf idx attr (pairwise metric)) (pairwise metric) attr adj reps F
        { s with rng := r0 } = .ok { s' with rng := r' } := by
  induction h with
  | stop h =>
    intro s hx hi
    obtain ⟨s', h1, h2, h3⟩ := basicRound_end (expf := expf) (idx := idx) hsym h0 hp hs hx hi h
    refine ⟨s', h1, h2, fun r' => ?_⟩
    obtain ⟨r0, h3⟩ := h3 r'
    refine ⟨r0, ?_⟩
    unfold basicLoop
    rw [h3, Res.bind_ok]
    dsimp only
    rw [if_pos rfl]
  | next h _ ih =>
    intro s hx hi
    obtain ⟨t, h1, h2, h3⟩ := basicRound_next (expf := expf) (idx := idx) hsym h0 hp hs hx hi h
    obtain ⟨s', g1, g2, g3⟩ := ih h1 h2
    refine ⟨s', g1, g2, fun r' => ?_⟩
    obtain ⟨r1, g3⟩ := g3 r'
    obtain ⟨r0, h3⟩ := h3 r1
    refine ⟨r0, ?_⟩
    unfold basicLoop
    rw [h3, Res.bind_ok]
    dsimp only
    rw [if_neg (by simp), g3]

/-! ### A single region -/

omit hsym h0 hp in
theorem single_round {V : Type} [LT V] [DecidableEq V] {adj : V → V → Bool} {value : (V → Int) → ℚ}
    {x : Search V} (h1 : ∀ a b, x.labels a = x.labels b) (hb : x.barred = []) :
    Stuck adj value len (noted reps x) ∧ (∀ m, ¬ Best adj value len (noted reps x) m) ∧
      ∀ m, ¬ Aspirant value len (noted reps x) m := by
  have ho : ∀ m, ¬ Open adj len (noted reps x) m := by
    rintro m ⟨-, ⟨hne, ⟨u, hu, -⟩, -⟩, -⟩
    exact hne ((h1 _ _).trans hu)
  refine ⟨fun m hm => absurd hm (ho m), fun m hm => ho m hm.1, fun m hm => ?_⟩
  have := forbidden_iff.1 hm.1
  have hb' : (noted reps x).barred = [] := hb
  rw [hb'] at this
  cases len with
  | none => cases this
  | some l => simp [latest] at this

omit hsym h0 hp in
theorem single_result {V : Type} [LT V] [DecidableEq V] {adj : V → V → Bool} {value : (V → Int) → ℚ}
    {init L : V → Int} (h1 : ∀ a b, init a = init b) :
    TabuResult adj value len reps init L ↔ L = init := by
  classical
  constructor
  · have : ∀ x : Search V, TabuRun adj value len reps x L → (∀ a b, x.labels a = x.labels b) → x.barred = [] →
        L = x.labels := by
      intro x hx
      induction hx with
      | @stop x L hend =>
        intro g1 hb
        obtain ⟨hst, hbest, hasp⟩ := single_round (adj := adj) (value := value) (len := len) (reps := reps) g1 hb
        obtain ⟨-, -, z, ⟨rfl, -⟩ | ⟨m, hm, -⟩, rfl⟩ := hend
        · rfl
        · exact absurd hm (hasp m)
      | @next x y L hround _ ih =>
        intro g1 hb
        obtain ⟨hst, hbest, hasp⟩ := single_round (adj := adj) (value := value) (len := len) (reps := reps) g1 hb
        rcases hround with ⟨m, hm, -⟩ | ⟨-, -, z, ⟨rfl, -⟩ | ⟨m, hm, -⟩, ⟨m', hm', -⟩ | ⟨-, rfl⟩⟩
        · exact absurd hm (hbest m)
        · exact absurd hm' (hbest m')
        · exact ih g1 hb
        · exact absurd hm (hasp m)
        · exact absurd hm (hasp m)
    exact fun hrun => this _ hrun h1 rfl
  · rintro rfl
    have : ∀ (d : Nat) (x : Search V), x.labels = L → x.barred = [] → reps ≤ (x.seen.count L : Int) + d →
        TabuRun adj value len reps x L := by
      intro d
      induction d with
      | zero =>
        rintro x rfl hb hd
        obtain ⟨hst, hbest, hasp⟩ := single_round (adj := adj) (value := value) (len := len) (reps := reps) h1 hb
        refine .stop ⟨hst, .inr ?_, _, .inl ⟨rfl, hasp⟩, rfl⟩
        simpa using hd
      | succ d ih =>
        rintro x rfl hb hd
        obtain ⟨hst, hbest, hasp⟩ := single_round (adj := adj) (value := value) (len := len) (reps := reps) h1 hb
        by_cases hdue : (noted reps x).due
        · exact .stop ⟨hst, hdue, _, .inl ⟨rfl, hasp⟩, rfl⟩
        · refine .next (.inr ⟨hst, hdue, _, .inl ⟨rfl, hasp⟩, .inr ⟨fun m hm => absurd hm (hbest m), rfl⟩⟩)
            (ih (noted reps x) rfl hb ?_)
          change _ ≤ ((List.count x.labels (x.seen ++ [x.labels]) : Nat) : Int) + _
          rw [List.count_append, List.count_singleton_self]
          push_cast at hd ⊢
          omega
    refine this reps.toNat _ rfl rfl ?_
    dsimp only
    rw [List.count_nil]
    omega

end

end

end

end

end Region
