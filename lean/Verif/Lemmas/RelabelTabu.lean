import Verif.Lemmas.Relabel
import Verif.Lemmas.RelTabu
/-
Two runs of the tabu searches that differ in the names of the regions only.
-/
namespace Region

open Res

/-- The move with other names for the regions. -/
def Move.rename {k : Nat} (f : Int → Int) (m : Move k) : Move k := ⟨m.area, f m.old, f m.new⟩

/-- The tabu list with other names for the regions. -/
def Tabu.rename {k : Nat} (f : Int → Int) (t : Tabu k) : Tabu k := ⟨t.items.map (Move.rename f), t.maxlen⟩

/-- The states of the tabu search are the same up to the names of the regions. -/
structure TabuState.Renamed {σ : Type} {k : Nat} (f : Int → Int) (s s' : TabuState σ k) : Prop where
  labels : s'.labels = fun i => f (s.labels i)
  tabu : s'.tabu = s.tabu.rename f
  visited : s'.visited = s.visited.map (List.map f)
  stop : s'.stop = s.stop
  strat : s'.strat = s.strat
  rng : s'.rng = s.rng

theorem Tabu.append_rename {k : Nat} (f : Int → Int) (t : Tabu k) (m : Move k) :
    (t.rename f).append (m.rename f) = (t.append m).rename f := by
  obtain ⟨items, L⟩ := t
  cases L with
  | none => simp [Tabu.append, Tabu.rename]
  | some L => simp [Tabu.append, Tabu.rename, List.map_drop]

section
variable {f : Int → Int} (hf : Function.Injective f)
include hf

theorem Move.rename_injective {k : Nat} : Function.Injective (Move.rename (k := k) f) := by
  rintro ⟨a, x, y⟩ ⟨a', x', y'⟩ h
  unfold Move.rename at h
  simp only [Move.mk.injEq] at h
  obtain ⟨h1, h2, h3⟩ := h
  rw [h1, hf h2, hf h3]

theorem booleanAssertFeasible_relabel {k : Nat} (adj : Adj k) (l : Labels k) :
    booleanAssertFeasible (fun i => f (l i)) adj none = booleanAssertFeasible l adj none := by
  unfold booleanAssertFeasible
  dsimp only
  congr 1
  rw [Bool.eq_iff_iff]
  simp only [List.all_eq_true, List.mem_map, mem_uniqueSorted, mem_arrayList, id_eq]
  constructor
  · rintro h x ⟨r, ⟨i, rfl⟩, rfl⟩
    rw [← whereEq_relabel hf]
    exact h _ ⟨_, ⟨i, rfl⟩, rfl⟩
  · rintro h x ⟨r, ⟨i, rfl⟩, rfl⟩
    rw [whereEq_relabel hf]
    exact h _ ⟨_, ⟨i, rfl⟩, rfl⟩

theorem tabuMakeMove_relabel {k : Nat} (adj : Adj k) (a : Fin k) (r : Int) (l : Labels k)
    (t : Tabu k) :
    Rel (fun x y => y.1 = x.1 ∧ (y.2.1 = fun i => f (x.2.1 i)) ∧ y.2.2 = x.2.2.rename f)
      (tabuMakeMove adj a r l t)
      (tabuMakeMove adj a (f r) (fun i => f (l i)) (t.rename f)) := by
  unfold tabuMakeMove
  dsimp only
  rw [makeMove_relabel, booleanAssertFeasible_relabel hf]
  refine Rel.same _ fun ok => ?_
  rw [makeMove_relabel]
  have ht : (t.rename f).append ⟨a, f r, f (l a)⟩ = (t.append ⟨a, r, l a⟩).rename f :=
    Tabu.append_rename f t ⟨a, r, l a⟩
  rw [ht]
  split_ifs
  · exact ⟨rfl, rfl, rfl⟩
  · exact ⟨rfl, rfl, rfl⟩

theorem possibleMoves_relabel {k : Nat} (adj : Adj k) (l : Labels k) (t : Tabu k) :
    possibleMoves adj (fun i => f (l i)) (t.rename f) =
      (possibleMoves adj l t).map (Move.rename f) := by
  unfold possibleMoves
  rw [List.map_flatMap]
  congr 1
  funext a
  rw [whereEq_relabel hf, count_relabel hf]
  split_ifs with h
  · rw [List.map_map]
    have hc : ∀ b, (t.rename f).items.contains ⟨a, f (l a), f (l b)⟩ =
        t.items.contains ⟨a, l a, l b⟩ := fun b =>
      contains_map_inj (Move.rename_injective hf) t.items ⟨a, l a, l b⟩
    simp only [hc, ne_eq, hf.eq_iff]
    rfl
  · rfl

variable {k : Nat} {ρ : Type} {obj : Objective ρ} {attr : Fin k → ρ} (hobj : NameFree obj attr)
include hobj

theorem updateOf_relabel (l : Labels k) (m : Move k) :
    updateOf obj attr (fun i => f (l i)) (m.rename f) = updateOf obj attr l m := by
  unfold updateOf
  rw [show (m.rename f).new = f m.new from rfl, show (m.rename f).area = m.area from rfl,
    hobj.update hf]

theorem bestMove_relabel (l : Labels k) : ∀ (ms : List (Move k)) (i : Nat)
    (best : Option (Nat × Move k × ℚ)),
    Rel (fun x y => y = x.map fun t => (t.1, t.2.1.rename f, t.2.2))
      (bestMove obj attr l ms i best)
      (bestMove obj attr (fun i => f (l i)) (ms.map (Move.rename f)) i
        (best.map fun t => (t.1, t.2.1.rename f, t.2.2))) := by
  intro ms
  induction ms with
  | nil => intro i best; exact rfl
  | cons m ms ih =>
    intro i best
    rw [List.map_cons]
    unfold bestMove
    rw [updateOf_relabel hf hobj]
    refine Rel.same _ fun d => ?_
    dsimp only
    rcases best with _ | ⟨j, m', d'⟩
    · exact ih (i + 1) (some (i, m, d))
    · dsimp only [Option.map_some]
      split_ifs
      · exact ih (i + 1) (some (i, m, d))
      · exact ih (i + 1) (some (j, m', d'))

theorem improvingTabus_relabel (l : Labels k) : ∀ (ms : List (Move k)),
    Rel (fun x y => y = x.map (Move.rename f)) (improvingTabus obj attr l ms)
      (improvingTabus obj attr (fun i => f (l i)) (ms.map (Move.rename f))) := by
  intro ms
  induction ms with
  | nil => exact rfl
  | cons m ms ih =>
    rw [List.map_cons]
    unfold improvingTabus
    simp only [show (m.rename f).old = f m.old from rfl, show (m.rename f).area = m.area from rfl,
      hf.eq_iff]
    split_ifs
    · rw [updateOf_relabel hf hobj]
      refine Rel.same _ fun d => Rel.bind ih ?_
      rintro x y rfl
      split_ifs <;> exact rfl
    · exact ih

omit hobj
variable {σ : Type} {ops : StratOps σ k} (hops : OpsRelabel f ops) (adj : Adj k)
include hops

theorem tryMove_relabel (m : Move k) {s s' : TabuState σ k} (h : s.Renamed f s') :
    Rel (fun x y => y.1 = x.1 ∧ x.2.Renamed f y.2) (tryMove ops adj m s)
      (tryMove ops adj (m.rename f) s') := by
  unfold tryMove
  rw [h.strat, h.rng, h.labels, h.tabu, show (m.rename f).new = f m.new from rfl,
    show (m.rename f).area = m.area from rfl, hops]
  refine Rel.same _ fun p => ?_
  obtain ⟨b, st, rg⟩ := p
  dsimp only
  split_ifs
  · refine Rel.bind (tabuMakeMove_relabel hf adj m.area m.new s.labels s.tabu) ?_
    rintro ⟨b1, l1, t1⟩ ⟨b2, l2, t2⟩ ⟨h1, h2, h3⟩
    exact ⟨rfl, h2, h3, h.visited, h.stop, rfl, rfl⟩
  · exact ⟨rfl, rfl, rfl, h.visited, h.stop, rfl, rfl⟩

include hobj

theorem aspiration_relabel {s s' : TabuState σ k} (h : s.Renamed f s') :
    Rel (TabuState.Renamed f) (aspiration ops obj attr adj s) (aspiration ops obj attr adj s') := by
  unfold aspiration
  rw [h.labels, h.tabu, h.rng]
  refine Rel.bind (improvingTabus_relabel hf hobj s.labels s.tabu.items) ?_
  rintro x y rfl
  simp only [List.map_eq_nil_iff]
  split_ifs
  · exact h
  · refine Rel.bind (randomElementFrom_map _ x s.rng) ?_
    rintro ⟨m, rg⟩ ⟨m', rg'⟩ ⟨h1, h2⟩
    dsimp only at h1 h2 ⊢
    subst h1 h2
    refine Rel.bind (tryMove_relabel hf hops adj m ?_) ?_
    · exact ⟨rfl, rfl, h.visited, h.stop, h.strat, rfl⟩
    · exact fun _ _ h => h.2

theorem basicElse_relabel (best : Option (Nat × Move k × ℚ)) {s s' : TabuState σ k}
    (h : s.Renamed f s') :
    Rel (fun x y => y.1 = x.1 ∧ x.2.Renamed f y.2) (basicElse ops obj attr adj best s)
      (basicElse ops obj attr adj (best.map fun t => (t.1, t.2.1.rename f, t.2.2)) s') := by
  unfold basicElse
  refine Rel.bind (aspiration_relabel hf hobj hops adj h) ?_
  intro t t' ht
  rw [ht.stop]
  split_ifs
  · exact ⟨rfl, ht⟩
  · rcases best with _ | ⟨j, m, d⟩
    · exact ⟨rfl, ht⟩
    · exact Rel.bind (tryMove_relabel hf hops adj m ht) fun _ _ h => ⟨rfl, h.2⟩

theorem basicRound_relabel {s s' : TabuState σ k} (h : s.Renamed f s') :
    Rel (fun x y => y.1 = x.1 ∧ x.2.Renamed f y.2) (basicRound ops obj attr adj s)
      (basicRound ops obj attr adj s') := by
  unfold basicRound
  rw [h.labels, h.tabu, possibleMoves_relabel hf]
  refine Rel.bind (bestMove_relabel hf hobj s.labels _ 0 none) ?_
  rintro best _ rfl
  rcases best with _ | ⟨j, m, d⟩
  · exact basicElse_relabel hf hobj hops adj none h
  · dsimp only [Option.map_some]
    split_ifs
    · refine Rel.bind (tryMove_relabel hf hops adj m h) ?_
      rintro ⟨b, t⟩ ⟨b', t'⟩ ⟨h1, h2⟩
      dsimp only at h1 h2 ⊢
      subst h1
      split_ifs
      · exact ⟨rfl, h2⟩
      · exact basicElse_relabel hf hobj hops adj (some (j, m, d)) h2
    · exact basicElse_relabel hf hobj hops adj (some (j, m, d)) h

omit hops hobj in
theorem count_visited_relabel (v : List (List Int)) (l : Labels k) :
    (v.map (List.map f)).count (arrayList fun i => f (l i)) = v.count (arrayList l) := by
  rw [arrayList_relabel]
  exact List.count_map_of_injective _ _ (List.map_injective_iff.2 hf) _

omit hobj hops in
theorem noteVisit_relabel (reps : Int) {s s' : TabuState σ k} (h : s.Renamed f s') :
    (noteVisit reps s).Renamed f (noteVisit reps s') := by
  refine ⟨h.labels, h.tabu, ?_, ?_, h.strat, h.rng⟩
  · change s'.visited ++ [arrayList s'.labels] = List.map (List.map f) (s.visited ++ [arrayList s.labels])
    rw [h.visited, h.labels, arrayList_relabel, List.map_append]
    rfl
  · change (s'.stop || _) = (s.stop || _)
    rw [h.stop, h.visited, h.labels, count_visited_relabel hf]

theorem basicLoop_relabel (reps : Int) : ∀ (fuel : Nat) {s s' : TabuState σ k}, s.Renamed f s' →
    Rel (TabuState.Renamed f) (basicLoop ops obj attr adj reps fuel s)
      (basicLoop ops obj attr adj reps fuel s') := by
  intro fuel
  induction fuel with
  | zero => intro s s' h; trivial
  | succ fuel ih =>
    intro s s' h
    unfold basicLoop
    refine Rel.bind (basicRound_relabel hf hobj hops adj (noteVisit_relabel hf reps h)) ?_
    rintro ⟨b, t⟩ ⟨b', t'⟩ ⟨h1, h2⟩
    dsimp only at h1 h2 ⊢
    subst h1
    split_ifs
    · exact h2
    · exact ih h2

omit hobj hops in
theorem length_unique_relabel (l : Labels k) :
    (uniqueSorted (arrayList fun i => f (l i))).length = (uniqueSorted (arrayList l)).length := by
  rw [length_uniqueSorted, length_uniqueSorted, arrayList_relabel]
  have : ((arrayList l).map f).toFinset = (arrayList l).toFinset.image f := by
    ext x
    simp
  rw [this, Finset.card_image_of_injective _ hf]

theorem basicComponent_relabel (len : Option Nat) (reps : Int) (fuel : Nat) (init : Labels k)
    (st : σ) (rng : Rng) :
    Rel (RenamedOut f Eq) (basicComponent ops obj attr adj len reps fuel init st rng)
      (basicComponent ops obj attr adj len reps fuel (fun i => f (init i)) st rng) := by
  unfold basicComponent
  rw [length_unique_relabel hf]
  split_ifs
  · exact ⟨rfl, rfl, rfl⟩
  · refine Rel.bind (basicLoop_relabel hf hobj hops adj reps fuel ?_) ?_
    · exact ⟨rfl, rfl, rfl, rfl, rfl, rfl⟩
    · exact fun _ _ h => ⟨h.labels, h.strat.symm, h.rng⟩

/-! ### Reactive tabu -/

omit hobj in
theorem randomMoves_relabel : ∀ (p : Nat) (ms : List (Move k)) {s s' : TabuState σ k},
    s.Renamed f s' → Rel (TabuState.Renamed f) (randomMoves ops adj p ms s)
      (randomMoves ops adj p (ms.map (Move.rename f)) s') := by
  intro p
  induction p with
  | zero => intro ms s s' h; exact h
  | succ p ih =>
    intro ms s s' h
    unfold randomMoves
    rw [h.rng]
    refine Rel.bind (popRandomlyFrom_map _ ms s.rng) ?_
    rintro ⟨m, ms1, rg⟩ ⟨m', ms1', rg'⟩ ⟨h1, h2, h3⟩
    dsimp only at h1 h2 h3 ⊢
    subst h1 h2 h3
    refine Rel.bind (tryMove_relabel hf hops adj m ?_) ?_
    · exact ⟨h.labels, h.tabu, h.visited, h.stop, h.strat, rfl⟩
    · exact fun _ _ h => ih _ h.2

/-- The last step with other names for the regions. -/
def LastStep.rename (f : Int → Int) : LastStep → LastStep
  | .ten => .ten
  | .eleven saved => .eleven (saved.map f)

omit hf hobj hops in
theorem idxOf_map_inj {α β : Type} [BEq α] [LawfulBEq α] [BEq β] [LawfulBEq β] {g : α → β}
    (hg : Function.Injective g) (l : List α) (x : α) : (l.map g).idxOf (g x) = l.idxOf x := by
  induction l with
  | nil => rfl
  | cons y ys ih =>
    have h : (g y == g x) = (y == x) := by
      rw [Bool.eq_iff_iff]
      simp [hg.eq_iff]
    simp only [List.map_cons, List.idxOf_cons, ih, h]

omit hobj hops in
theorem lastCycle_relabel (v : List (List Int)) (l : Labels k) :
    lastCycle (v.map (List.map f)) (arrayList fun i => f (l i)) =
      (lastCycle v (arrayList l)).map (List.map f) := by
  unfold lastCycle
  rw [arrayList_relabel, ← List.map_reverse, idxOf_map_inj (List.map_injective_iff.2 hf),
    List.length_map, List.map_drop]

omit hobj hops in
theorem cycleCount_relabel (v c : List (List Int)) (k2 : Int) : ∀ (is : List Nat) (x : Int),
    cycleCount (v.map (List.map f)) (c.map (List.map f)) k2 is x = cycleCount v c k2 is x := by
  intro is
  induction is with
  | nil => intro x; rfl
  | cons i is ih =>
    intro x
    unfold cycleCount
    simp only [List.length_map, ← List.map_drop, ← List.map_take,
      (List.map_injective_iff.2 (List.map_injective_iff.2 hf)).eq_iff, ih]

theorem reactRound_relabel (k1 k2 : Int) (avg : ℚ) {s s' : TabuState σ k} (h : s.Renamed f s') :
    Rel (fun x y => y.1 = x.1.rename f ∧ x.2.Renamed f y.2)
      (reactRound ops obj attr adj k1 k2 avg s) (reactRound ops obj attr adj k1 k2 avg s') := by
  unfold reactRound
  dsimp only
  rw [h.labels, h.tabu, possibleMoves_relabel hf]
  refine Rel.bind (bestMove_relabel hf hobj s.labels _ 0 none) ?_
  rintro best _ rfl
  rcases best with _ | ⟨j, m, d⟩
  · rfl
  · dsimp only [Option.map_some]
    refine Rel.bind (tryMove_relabel hf hops adj m h) ?_
    rintro ⟨b, t⟩ ⟨b', t'⟩ ⟨h1, h2⟩
    dsimp only at h1 h2 ⊢
    have hv : ∀ l : Labels k, t'.visited.contains (arrayList fun i => f (l i)) =
        t.visited.contains (arrayList l) := by
      intro l
      rw [h2.visited, arrayList_relabel]
      exact contains_map_inj (List.map_injective_iff.2 hf) _ _
    have hten : TabuState.Renamed f { t with visited := t.visited ++ [arrayList t.labels] }
        { t' with visited := t'.visited ++ [arrayList t'.labels] } := by
      refine ⟨h2.labels, h2.tabu, ?_, h2.stop, h2.strat, h2.rng⟩
      rw [h2.visited, h2.labels, arrayList_relabel, List.map_append]
      rfl
    rw [h2.labels, h2.visited] at hten
    rw [h2.labels, hv, h2.visited, count_visited_relabel hf, lastCycle_relabel hf, cycleCount_relabel hf, List.length_map,
      List.length_map, List.eraseIdx_map]
    have heleven := Rel.bind (randomMoves_relabel hf hops adj (⌊1 + avg / 2⌋).toNat
      ((possibleMoves adj s.labels s.tabu).eraseIdx j)
      (s := { t with visited := [] })
      (s' := { t' with labels := fun i => f (t.labels i), visited := [] })
      ⟨rfl, h2.tabu, rfl, h2.stop, h2.strat, h2.rng⟩)
      (f := fun z => Res.ok (LastStep.eleven (arrayList t.labels), z))
      (g := fun z => Res.ok (LastStep.eleven (arrayList fun i => f (t.labels i)), z))
      (S := fun x y => y.1 = x.1.rename f ∧ x.2.Renamed f y.2)
      (fun _ _ h => ⟨by rw [arrayList_relabel]; rfl, h⟩)
    split_ifs
    · exact heleven
    · rfl
    · exact heleven
    · rfl
    · exact ⟨rfl, hten⟩
    · exact ⟨rfl, hten⟩

theorem reactLoop_relabel (k1 k2 : Int) (avg : ℚ) : ∀ (it : Nat) (start : Option ℚ)
    (last : Option LastStep) {s s' : TabuState σ k}, s.Renamed f s' →
    Rel (fun x y => y.1 = x.1.map (LastStep.rename f) ∧ x.2.Renamed f y.2)
      (reactLoop ops obj attr adj k1 k2 avg it start last s)
      (reactLoop ops obj attr adj k1 k2 avg it start (last.map (LastStep.rename f)) s') := by
  intro it
  induction it with
  | zero => intro start last s s' h; exact ⟨rfl, h⟩
  | succ it ih =>
    intro start last s s' h
    unfold reactLoop
    dsimp only
    rw [h.labels, hobj.call hf]
    split_ifs
    · refine Rel.bind (reactRound_relabel hf hobj hops adj k1 k2 avg h) ?_
      rintro ⟨l, t⟩ ⟨l', t'⟩ ⟨h1, h2⟩
      dsimp only at h1 h2 ⊢
      subst h1
      exact ih _ (some l) h2
    · exact ⟨rfl, h⟩

omit hf hobj hops in
theorem reactResult_relabel (f : Int → Int) (v : List (List Int)) (last : Option LastStep) :
    Rel (fun x y => y = x.map f) (reactResult v last)
      (reactResult (v.map (List.map f)) (last.map (LastStep.rename f))) := by
  rcases last with _ | l
  · rfl
  · cases l with
    | ten =>
      simp only [Option.map_some, LastStep.rename, reactResult]
      rw [← List.map_reverse]
      rcases v.reverse with _ | ⟨a, _ | ⟨b, l⟩⟩ <;> rfl
    | eleven saved => rfl

/-- The objects are the same up to the names of the regions. -/
structure ReactObj.Renamed (f : Int → Int) (s s' : ReactObj σ) : Prop where
  visited : s'.visited = s.visited.map (List.map f)
  avg : s'.avg = s.avg
  repCounter : s'.repCounter = s.repCounter
  strat : s'.strat = s.strat
  rng : s'.rng = s.rng

theorem reactComponentList_relabel (maxIt : Nat) (k1 k2 : Int) (init : Labels k) {self self' : ReactObj σ}
    (h : self.Renamed f self') :
    Rel (fun x y => y.1 = x.1.map f ∧ x.2.Renamed f y.2)
      (reactComponentList ops obj attr adj maxIt k1 k2 init self)
      (reactComponentList ops obj attr adj maxIt k1 k2 (fun i => f (init i)) self') := by
  unfold reactComponentList
  rw [length_unique_relabel hf]
  split_ifs
  · exact ⟨arrayList_relabel f init, h⟩
  · rw [h.avg]
    refine Rel.bind (reactLoop_relabel hf hobj hops adj k1 k2 self.avg maxIt none none ?_) ?_
    · exact ⟨rfl, rfl, h.visited, rfl, h.strat, h.rng⟩
    · rintro ⟨l, t⟩ ⟨l', t'⟩ ⟨h1, h2⟩
      dsimp only at h1 h2 ⊢
      subst h1
      rw [h2.visited]
      refine Rel.bind (reactResult_relabel f _ _) ?_
      rintro x y rfl
      exact ⟨rfl, rfl, rfl, h.repCounter, h2.strat, h2.rng⟩

end

theorem fromArray_relabel (f : Int → Int) (k : Nat) (l : List Int) :
    Rel (fun x y => y = fun i => f (x i)) (fromArray k l) (fromArray k (l.map f)) := by
  unfold fromArray
  by_cases h : l.length = k
  · have h' : (l.map f).length = k := by rw [List.length_map, h]
    rw [dif_pos h, dif_pos h']
    change _ = _
    funext i
    simp
  · have h' : ¬ (l.map f).length = k := by rw [List.length_map]; exact h
    rw [dif_neg h, dif_neg h']
    rcases l with _ | ⟨a, _ | ⟨b, l⟩⟩ <;> rfl

end Region
