import Verif.Lemmas.Rel
import Verif.Lemmas.Objective
/-
Two runs that differ in the names of the regions only.
-/
namespace Region

open Res

theorem arrayList_relabel {k : Nat} (f : Int → Int) (l : Labels k) :
    arrayList (fun i => f (l i)) = (arrayList l).map f := by
  unfold arrayList
  rw [List.map_map]
  rfl

theorem contains_map_inj {α β : Type} [BEq α] [LawfulBEq α] [BEq β] [LawfulBEq β] {g : α → β}
    (hg : Function.Injective g) (l : List α) (x : α) : (l.map g).contains (g x) = l.contains x := by
  rw [Bool.eq_iff_iff]
  simp only [List.contains_iff_mem, List.mem_map]
  constructor
  · rintro ⟨y, hy, h⟩
    exact hg h ▸ hy
  · exact fun h => ⟨x, h, rfl⟩

section
variable {f : Int → Int} (hf : Function.Injective f)
include hf

theorem whereEq_relabel {k : Nat} (l : Labels k) (r : Int) :
    whereEq (fun i => f (l i)) (f r) = whereEq l r := by
  unfold whereEq
  simp only [hf.eq_iff]

theorem count_relabel {k : Nat} (l : Labels k) (r : Int) :
    count (arrayList fun i => f (l i)) (f r) = count (arrayList l) r := by
  rw [count_eq, count_eq, arrayList_relabel]
  exact List.count_map_of_injective _ _ hf _

end

theorem makeMove_relabel {k : Nat} (f : Int → Int) (a : Fin k) (r : Int) (l : Labels k) :
    makeMove a (f r) (fun i => f (l i)) = fun i => f (makeMove a r l i) := by
  funext i
  unfold makeMove
  split_ifs <;> rfl

theorem popRandomlyFrom_map {α β : Type} (g : α → β) (l : List α) (rng : Rng) :
    Rel (fun x y => y.1 = g x.1 ∧ y.2.1 = x.2.1.map g ∧ y.2.2 = x.2.2) (popRandomlyFrom l rng)
      (popRandomlyFrom (l.map g) rng) := by
  unfold popRandomlyFrom
  rw [List.length_map]
  refine Rel.same _ fun p => ?_
  obtain ⟨pos, rng⟩ := p
  dsimp only
  rw [List.getElem?_map]
  cases h : l[pos]? with
  | none => rfl
  | some x => exact ⟨rfl, by rw [List.eraseIdx_map], rfl⟩

theorem randomElementFrom_map {α β : Type} (g : α → β) (l : List α) (rng : Rng) :
    Rel (fun x y => y.1 = g x.1 ∧ y.2 = x.2) (randomElementFrom l rng)
      (randomElementFrom (l.map g) rng) := by
  unfold randomElementFrom
  rw [List.length_map]
  refine Rel.same _ fun p => ?_
  obtain ⟨pos, rng⟩ := p
  dsimp only
  rw [List.getElem?_map]
  cases h : l[pos]? with
  | none => rfl
  | some x => exact ⟨rfl, rfl⟩

/-- The objective depends on the partition only, not on the names of the regions. -/
structure NameFree {k : Nat} {ρ : Type} (obj : Objective ρ) (attr : Fin k → ρ) : Prop where
  call : ∀ {f : Int → Int}, Function.Injective f → ∀ l : Labels k,
    obj.call (fun i => f (l i)) attr = obj.call l attr
  update : ∀ {f : Int → Int}, Function.Injective f → ∀ a r (l : Labels k),
    obj.update a (f r) (fun i => f (l i)) attr = obj.update a r l attr

theorem strat_call_relabel {n q k : Nat} {ρ : Type} {f : Int → Int} (hf : Function.Injective f)
    (expf : ℚ → ℚ) (idx : Fin k → Fin n) {attr : Fin k → ρ} {obj : Objective ρ}
    (hobj : NameFree obj attr) (st : Strat n q) (a : Fin k) (r : Int) (l : Labels k) (rng : Rng) :
    Strat.call expf idx attr obj st a (f r) (fun i => f (l i)) rng =
      Strat.call expf idx attr obj st a r l rng := by
  induction st generalizing rng with
  | azp v => simp only [Strat.call, hobj.update hf]
  | sa t term m v al mm => simp only [Strat.call, hobj.update hf]
  | maxp spat thr v inner ih =>
    simp only [Strat.call, ih, Strat.maxpBlocks, whereEq_relabel hf]

/-- The strategy object does not look at the names of the regions. -/
def OpsRelabel {σ : Type} {k : Nat} (f : Int → Int) (ops : StratOps σ k) : Prop :=
  ∀ st a r (l : Labels k) rng, ops.call st a (f r) (fun i => f (l i)) rng = ops.call st a r l rng

section azp
variable {σ : Type} {k : Nat} {f : Int → Int} (hf : Function.Injective f) {ops : StratOps σ k}
  (hops : OpsRelabel f ops) (adj : Adj k)

/-- The states of AZP are the same up to the names of the regions. -/
structure AzpState.Renamed (f : Int → Int) (s s' : AzpState σ k) : Prop where
  labels : s'.labels = fun i => f (s.labels i)
  nbrs : ∀ x, s'.nbrs (f x) = s.nbrs x
  strat : s'.strat = s.strat
  rng : s'.rng = s.rng

include hf

theorem modNbrs_relabel {nbrs nbrs' : Int → Option (Fin k → Bool)} (h : ∀ x, nbrs' (f x) = nbrs x)
    (r : Int) (g : (Fin k → Bool) → Fin k → Bool) :
    Rel (fun a b => ∀ x, b (f x) = a x) (modNbrs nbrs r g) (modNbrs nbrs' (f r) g) := by
  unfold modNbrs
  rw [h]
  cases nbrs r with
  | none => rfl
  | some s =>
    intro x
    dsimp only
    simp only [hf.eq_iff, h]

theorem applyMove_relabel (r : Int) (a : Fin k) {s s' : AzpState σ k} (h : s.Renamed f s') :
    Rel (AzpState.Renamed f) (applyMove adj r a s) (applyMove adj (f r) a s') := by
  unfold applyMove
  dsimp only
  rw [h.labels, makeMove_relabel]
  simp only [whereEq_relabel hf]
  refine Rel.bind (modNbrs_relabel hf h.nbrs _ _) fun _ _ h1 => ?_
  refine Rel.bind (modNbrs_relabel hf h1 _ _) fun _ _ h2 => ?_
  refine Rel.bind (modNbrs_relabel hf h2 _ _) fun _ _ h3 => ?_
  refine Rel.bind (modNbrs_relabel hf h3 _ _) fun _ _ h4 => ?_
  exact ⟨rfl, h4, h.strat, h.rng⟩

theorem candidates_relabel (l : Labels k) (border : Fin k → Bool) :
    candidates adj (fun i => f (l i)) border = candidates adj l border := by
  have h : ∀ x, isConnected (subAdjWo adj (whereEq (fun i => f (l i)) (f (l x))) [x]) =
      isConnected (subAdjWo adj (whereEq l (l x)) [x]) := by
    intro x
    rw [whereEq_relabel hf]
  unfold candidates
  simp only [h, count_relabel hf]

include hops

theorem tryCandidates_relabel (r : Int) : ∀ (fuel : Nat) (cs : List (Fin k)) {s s' : AzpState σ k},
    s.Renamed f s' → Rel (fun x y => x.1 = y.1 ∧ x.2.Renamed f y.2)
      (tryCandidates ops adj r fuel cs s) (tryCandidates ops adj (f r) fuel cs s') := by
  intro fuel
  induction fuel with
  | zero =>
    intro cs s s' h
    cases cs with
    | nil => exact ⟨rfl, h⟩
    | cons => trivial
  | succ fuel ih =>
    intro cs s s' h
    cases cs with
    | nil => exact ⟨rfl, h⟩
    | cons x xs =>
      unfold tryCandidates
      rw [h.rng, h.labels, h.strat]
      refine Rel.same _ fun p => ?_
      obtain ⟨cand, rest, rng⟩ := p
      dsimp only
      rw [hops]
      refine Rel.same _ fun p => ?_
      obtain ⟨b, st, rg⟩ := p
      dsimp only
      have hc : AzpState.Renamed f { s with strat := st, rng := rg }
          { labels := fun i => f (s.labels i), nbrs := s'.nbrs, strat := st, rng := rg } :=
        ⟨rfl, h.nbrs, rfl, rfl⟩
      cases b with
      | true =>
        refine Rel.bind (applyMove_relabel hf adj r cand hc) ?_
        exact fun _ _ h => ⟨rfl, h⟩
      | false => exact ih rest hc

theorem growRegion_relabel (r : Int) : ∀ (fuel : Nat) {s s' : AzpState σ k}, s.Renamed f s' →
    Rel (AzpState.Renamed f) (growRegion ops adj r fuel s) (growRegion ops adj (f r) fuel s') := by
  intro fuel
  induction fuel with
  | zero => intro s s' h; trivial
  | succ fuel ih =>
    intro s s' h
    unfold growRegion getNbrs
    rw [h.nbrs]
    refine Rel.same _ fun border => ?_
    dsimp only
    rw [h.labels, candidates_relabel hf adj]
    refine Rel.bind (tryCandidates_relabel hf hops adj r _ _ h) ?_
    rintro ⟨b, t⟩ ⟨b', t'⟩ ⟨h1, h2⟩
    dsimp only at h1 h2 ⊢
    subst h1
    cases b with
    | true => exact ih h2
    | false => exact h2

theorem passRegions_relabel (fuel : Nat) : ∀ (m : Nat) (rs : List Int) {s s' : AzpState σ k},
    s.Renamed f s' → Rel (AzpState.Renamed f) (passRegions ops adj fuel m rs s)
      (passRegions ops adj fuel m (rs.map f) s') := by
  intro m
  induction m with
  | zero =>
    intro rs s s' h
    cases rs with
    | nil => exact h
    | cons => trivial
  | succ m ih =>
    intro rs s s' h
    cases rs with
    | nil => exact h
    | cons x xs =>
      rw [List.map_cons]
      unfold passRegions
      rw [h.rng, ← List.map_cons]
      refine Rel.bind (popRandomlyFrom_map f _ _) ?_
      rintro ⟨r, rest, rng⟩ ⟨r', rest', rng'⟩ ⟨h1, h2, h3⟩
      dsimp only at h1 h2 h3 ⊢
      subst h1 h2 h3
      refine Rel.bind (growRegion_relabel hf hops adj r fuel ⟨h.labels, h.nbrs, h.strat, rfl⟩) ?_
      exact fun _ _ h => ih rest h

theorem azpOuter_relabel (rs : List Int) (fuel : Nat) : ∀ (m : Nat) (start : Option ℚ) (stop : ℚ)
    {s s' : AzpState σ k}, s.Renamed f s' →
      Rel (AzpState.Renamed f) (azpOuter ops adj rs fuel m start stop s)
        (azpOuter ops adj (rs.map f) fuel m start stop s') := by
  intro m
  induction m with
  | zero =>
    intro start stop s s' h
    unfold azpOuter
    split_ifs
    · trivial
    · exact h
  | succ m ih =>
    intro start stop s s' h
    unfold azpOuter
    split_ifs
    · rw [List.length_map]
      refine Rel.bind (passRegions_relabel hf hops adj fuel _ _ h) ?_
      intro t t' ht
      rw [ht.strat]
      exact ih (some stop) _ ht
    · exact h

/-- What two component routines return is the same up to the names of the regions. -/
def RenamedOut {k : Nat} {σ : Type} (f : Int → Int) (SR : σ → σ → Prop) (x y : Labels k × σ × Rng) :
    Prop :=
  (y.1 = fun i => f (x.1 i)) ∧ SR x.2.1 y.2.1 ∧ y.2.2 = x.2.2

theorem azpComponent_relabel (fuel : Nat) (init : Labels k)
    (horder : ∀ i j, init i < init j ↔ f (init i) < f (init j)) (st : σ) (rng : Rng) :
    Rel (RenamedOut f Eq) (azpComponent ops adj fuel init st rng)
      (azpComponent ops adj fuel (fun i => f (init i)) st rng) := by
  have hu : uniqueSorted (arrayList fun i => f (init i)) = (uniqueSorted (arrayList init)).map f := by
    rw [arrayList_relabel]
    refine (uniqueSorted_sorted _).eq_of_mem_iff ?_ ?_
    · rw [List.pairwise_map]
      refine (uniqueSorted_sorted _).imp_of_mem ?_
      intro x y hx hy hxy
      rw [mem_uniqueSorted, mem_arrayList] at hx hy
      obtain ⟨i, rfl⟩ := hx
      obtain ⟨j, rfl⟩ := hy
      exact (horder i j).1 hxy
    · intro x
      simp only [mem_uniqueSorted, List.mem_map]
  unfold azpComponent
  dsimp only
  rw [hu]
  simp only [List.length_map, List.map_eq_nil_iff]
  split_ifs
  · exact ⟨rfl, rfl, rfl⟩
  · rfl
  · refine Rel.bind (azpOuter_relabel hf hops adj _ fuel fuel none _ ⟨rfl, ?_, rfl, rfl⟩) ?_
    · intro x
      unfold initNbrs
      simp only [contains_map_inj hf, whereEq_relabel hf]
    · exact fun _ _ h => ⟨h.labels, h.strat.symm, h.rng⟩

end azp

end Region
