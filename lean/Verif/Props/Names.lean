import Verif.SpecNames
import Verif.Lemmas.RelabelFit
import Verif.Props.Repeat
import Verif.Props.PRegionsExact
/-
Property theorems C93: the names of the regions.
-/
namespace Region.Props

open Region Spec Res

set_option synthInstance.maxSize 2000

/-- An objective that depends on the partition only. -/
def IgnoresNames {ρ : Type} (obj : Objective ρ) : Prop :=
  ∀ {k : Nat} (labels labels' : Labels k) (attr : Fin k → ρ), SamePartition labels labels' →
    obj.call labels attr = obj.call labels' attr ∧
    ∀ a r r', (∀ i, labels i = r ↔ labels' i = r') →
      obj.update a r labels attr = obj.update a r' labels' attr

theorem whereEq_congr' {k : Nat} {l l' : Labels k} {r r' : Int} (h : ∀ i, l i = r ↔ l' i = r') :
    whereEq l r = whereEq l' r' := by
  unfold whereEq
  simp only [h]

theorem moved_congr {k : Nat} {l l' : Labels k} {r r' s s' : Int} (a : Fin k)
    (hs : ∀ i, l i = s ↔ l' i = s')
    (hrs : r = s ↔ r' = s') (i : Fin k) :
    makeMove a r l i = s ↔ makeMove a r' l' i = s' := by
  unfold makeMove
  split_ifs
  · exact hrs
  · exact hs i

/-- C93: the pairwise objective ignores the names. -/
theorem c93_pairwise {ρ : Type} (metric : ρ → ρ → ℚ) : IgnoresNames (pairwise metric) := by
  intro k l l' attr h
  refine ⟨c18_renaming metric l l' attr h, ?_⟩
  intro a r r' hr
  change pairwiseUpdate metric a r l attr = pairwiseUpdate metric a r' l' attr
  unfold pairwiseUpdate distancesTo
  rw [whereEq_congr' hr, whereEq_congr' (l := l) (l' := l') (r := l a) (r' := l' a) fun i => h i a]

/-- C93: so does the objective that measures distances from a center, for every reduction that does
not depend on the order of the values. -/
theorem c93_center {ρ : Type} (metric : ρ → ρ → ℚ) (center : List ρ → ρ) (reduction : List ℚ → ℚ)
    (hred : ∀ l l' : List ℚ, l.Perm l' → reduction l = reduction l') :
    IgnoresNames (centered metric center reduction) := by
  have hi : ∀ {k : Nat} {l l' : Labels k} {r r' : Int} (attr : Fin k → ρ)
      (_ : ∀ i, l i = r ↔ l' i = r'), intraregional metric center reduction l r attr =
        intraregional metric center reduction l' r' attr := by
    intro k l l' r r' attr h
    unfold intraregional
    rw [whereEq_congr' h]
  intro k l l' attr h
  constructor
  · change centerCall metric center reduction l attr = centerCall metric center reduction l' attr
    unfold centerCall
    apply hred
    -- the renaming of the labels that occur
    let g : Int → Int := fun x => match (whereEq l x) with
      | [] => 0
      | i :: _ => l' i
    have hg : ∀ i, g (l i) = l' i := by
      intro i
      have hne : whereEq l (l i) ≠ [] := by
        rw [Ne, whereEq_eq_nil]; push Not; exact ⟨i, rfl⟩
      change (match whereEq l (l i) with | [] => 0 | i :: _ => l' i) = l' i
      cases hw : whereEq l (l i) with
      | nil => exact absurd hw hne
      | cons j js =>
        have hj : j ∈ whereEq l (l i) := by rw [hw]; simp
        have : l j = l i := by simpa [whereEq] using hj
        exact (h j i).1 this
    have hperm : ((uniqueSorted (arrayList l)).map g).Perm (uniqueSorted (arrayList l')) := by
      refine (List.perm_ext_iff_of_nodup ?_ (uniqueSorted_nodup _)).2 ?_
      · refine (uniqueSorted_nodup _).map_on ?_
        intro x hx y hy hxy
        rw [mem_uniqueSorted, mem_arrayList] at hx hy
        obtain ⟨i, rfl⟩ := hx
        obtain ⟨j, rfl⟩ := hy
        rw [hg, hg] at hxy
        exact (h i j).2 hxy
      · intro x
        simp only [List.mem_map, mem_uniqueSorted, mem_arrayList]
        constructor
        · rintro ⟨_, ⟨i, rfl⟩, rfl⟩
          exact ⟨i, (hg i).symm⟩
        · rintro ⟨i, rfl⟩
          exact ⟨l i, ⟨i, rfl⟩, hg i⟩
    refine List.Perm.trans (List.Perm.of_eq ?_) (hperm.map _)
    rw [List.map_map]
    refine List.map_congr_left fun x hx => ?_
    rw [mem_uniqueSorted, mem_arrayList] at hx
    obtain ⟨i, rfl⟩ := hx
    simp only [Function.comp, hg]
    rw [hi attr (l' := l') (r' := l' i) fun j => h j i]
  · intro a r r' hr
    change (centerUpdate metric center reduction a r l attr).1 =
      (centerUpdate metric center reduction a r' l' attr).1
    have ha : ∀ i, l i = l a ↔ l' i = l' a := fun i => h i a
    have hra : r = l a ↔ r' = l' a :=
      ⟨fun e => ((hr a).1 e.symm).symm, fun e => ((hr a).2 e.symm).symm⟩
    unfold centerUpdate
    dsimp only
    rw [hi attr ha, hi attr hr, hi attr (moved_congr a ha hra),
      hi attr (moved_congr a (r := r) (r' := r') hr (by simp))]
    cases intraregional metric center reduction l' (l' a) attr with
    | none => rfl
    | some x =>
      cases intraregional metric center reduction l' r' attr with
      | none => rfl
      | some y =>
        dsimp only
        cases intraregional metric center reduction (makeMove a r' l') (l' a) attr with
        | none => rfl
        | some z => cases intraregional metric center reduction (makeMove a r' l') r' attr <;> rfl

theorem foldl_max_perm : ∀ {l l' : List ℚ}, l.Perm l' → ∀ x, l.foldl max x = l'.foldl max x := by
  intro l l' h
  induction h with
  | nil => intro x; rfl
  | cons a _ ih => intro x; exact ih _
  | swap a b l => intro x; simp only [List.foldl_cons, max_assoc, max_comm a b]
  | trans _ _ ih1 ih2 => intro x; rw [ih1, ih2]

/-- The library's reductions `sum` and `max` do not depend on the order. -/
theorem c93_reductions : (∀ l l' : List ℚ, l.Perm l' → l.sum = l'.sum) ∧
    ∀ l l' : List ℚ, l.Perm l' → listMax l = listMax l' := by
  refine ⟨fun _ _ h => h.sum_eq, ?_⟩
  intro l l' h
  induction h with
  | nil => rfl
  | cons a h _ => exact foldl_max_perm h a
  | swap a b l => simp only [listMax, List.foldl_cons, max_comm a b]
  | trans _ _ ih1 ih2 => rw [ih1, ih2]

/-- A reduction that does depend on the order makes the objective depend on the names. -/
theorem c93_center_order :
    (centered manhattan meanRow fun l => l.headD 0).call ![0, 0, 1, 1] (column ![0, 0, 0, 4]) = 0 ∧
    (centered manhattan meanRow fun l => l.headD 0).call ![1, 1, 0, 0] (column ![0, 0, 0, 4]) = 2 := by
  decide +kernel

theorem IgnoresNames.nameFreeOn {n : Nat} {ρ : Type} {obj : Objective ρ} (h : IgnoresNames obj)
    (attr : Fin n → ρ) : NameFreeOn obj attr := by
  intro k g
  constructor
  · intro f hf l
    exact (h _ _ _ fun i j => hf.eq_iff).1
  · intro f hf a r l
    exact (h _ _ _ fun i j => hf.eq_iff).2 a _ _ fun i => hf.eq_iff

theorem sameResult_of {n : Nat} {f : Int → Int} (hf : Function.Injective f) {init init' out out' : Labels n}
    (h : ∀ i, init' i = f (init i)) (h' : out' = fun i => f (out i)) :
    SameResult init init' out out' := by
  subst h'
  constructor
  · intro i j
    rw [h]
    exact hf.eq_iff.symm
  · intro i j
    exact hf.eq_iff.symm

section
variable {n q : Nat} {ρ : Type} (o : MstOrder) (expf : ℚ → ℚ) {obj : Objective ρ}
  (hobj : IgnoresNames obj) {adj : Adj n} (attr : Fin n → ρ) {p : Nat} {init init' : Labels n}
  (hfeas : Feasible adj init p) (hne : ∀ i, init i ≠ -1) (hne' : ∀ i, init' i ≠ -1)
include hobj hfeas hne hne'

/-- C93: what AZP does depends on the order of the names only, whatever the strategy. -/
theorem c93_azp (horder : SameNameOrder init init') (fuel : Nat) (st : Strat n q) (rng : Rng) :
    Rel (fun x y => SameResult init init' x.1 y.1 ∧ x.2 = y.2)
      (azpFit o expf obj fuel adj attr p (some init) st rng)
      (azpFit o expf obj fuel adj attr p (some init') st rng) := by
  have hpart : SamePartition init init' := by
    intro i j
    have h1 := horder i j
    have h2 := horder j i
    omega
  obtain ⟨f, hf, h1, hfi⟩ := exists_renaming hpart hne hne'
  obtain rfl : init' = fun i => f (init i) := funext hfi
  refine (azpFit_relabel hf h1 o expf (hobj.nameFreeOn attr) ⟨hfeas.1, by exact_mod_cast hfeas.2⟩
    horder fuel st rng).mono ?_
  rintro ⟨x, s, r⟩ ⟨y, s', r'⟩ ⟨e1, e2, e3⟩
  refine ⟨sameResult_of hf hfi e1, ?_⟩
  dsimp only at e2 e3 ⊢
  rw [e2, e3]

/-- C93: the same for simulated annealing with a new object. -/
theorem c93_sa (hs : Spec.Symmetric adj) (horder : SameNameOrder init init') (f1 f2 f3 : Nat)
    (P : SaParams) (cooling : ℚ) (rng : Rng) :
    Rel (fun x y => (∃ L L', x.1 = some L ∧ y.1 = some L' ∧ SameResult init init' L L') ∧
        x.2.2 = y.2.2)
      (saFit o expf obj f1 f2 f3 P .fresh adj attr p (some init) cooling rng)
      (saFit o expf obj f1 f2 f3 P .fresh adj attr p (some init') cooling rng) := by
  have hpart : SamePartition init init' := by
    intro i j
    have h1 := horder i j
    have h2 := horder j i
    omega
  obtain ⟨f, hf, h1, hfi⟩ := exists_renaming hpart hne hne'
  obtain rfl : init' = fun i => f (init i) := funext hfi
  refine (saFit_relabel hf h1 o expf hs (hobj.nameFreeOn attr)
    ⟨hfeas.1, by exact_mod_cast hfeas.2⟩ horder f1 f2 f3 P .fresh cooling rng).mono ?_
  rintro ⟨x, s, r⟩ ⟨y, s', r'⟩ ⟨⟨L, e1, e2⟩, e3, e4, e5⟩
  exact ⟨⟨L, _, e1, e2, sameResult_of hf hfi rfl⟩, e5.symm⟩

/-- C93: what the basic tabu search does does not depend on the names at all. -/
theorem c93_basic_tabu (hpart : SamePartition init init') (fuel : Nat) (len : Option Nat)
    (reps : Int) (st : Strat n q) (rng : Rng) :
    Rel (fun x y => SameResult init init' x.1 y.1 ∧ x.2 = y.2)
      (basicTabuFit o expf obj fuel len reps adj attr p (some init) st rng)
      (basicTabuFit o expf obj fuel len reps adj attr p (some init') st rng) := by
  obtain ⟨f, hf, h1, hfi⟩ := exists_renaming hpart hne hne'
  obtain rfl : init' = fun i => f (init i) := funext hfi
  refine (basicTabuFit_relabel hf h1 o expf (hobj.nameFreeOn attr)
    ⟨hfeas.1, by exact_mod_cast hfeas.2⟩ fuel len reps st rng).mono ?_
  rintro ⟨x, s, r⟩ ⟨y, s', r'⟩ ⟨e1, e2, e3⟩
  refine ⟨sameResult_of hf hfi e1, ?_⟩
  dsimp only at e2 e3 ⊢
  rw [e2, e3]

/-- C93: neither does what the reactive tabu search with a new object does. -/
theorem c93_reactive_tabu (hpart : SamePartition init init') (maxIt : Nat) (k1 k2 : Int)
    (st : Strat n q) (rng : Rng) :
    Rel (fun x y => SameResult init init' x.1 y.1 ∧ x.2.1.strat = y.2.1.strat ∧ x.2.2 = y.2.2)
      (reactiveTabuFit o expf obj maxIt k1 k2 adj attr p (some init) (.fresh st) rng)
      (reactiveTabuFit o expf obj maxIt k1 k2 adj attr p (some init') (.fresh st) rng) := by
  obtain ⟨f, hf, h1, hfi⟩ := exists_renaming hpart hne hne'
  obtain rfl : init' = fun i => f (init i) := funext hfi
  refine (reactiveTabuFit_relabel hf h1 o expf (hobj.nameFreeOn attr)
    ⟨hfeas.1, by exact_mod_cast hfeas.2⟩ maxIt k1 k2
    (self := .fresh st) (self' := .fresh st) ⟨rfl, rfl, rfl, rfl⟩ rng).mono ?_
  rintro ⟨x, s, r⟩ ⟨y, s', r'⟩ ⟨e1, e2, e3⟩
  exact ⟨sameResult_of hf hfi e1, e2.strat.symm, e3.symm⟩

end

/-- The labels AZP returns on the path of four areas, or nothing. -/
def azpNames (init : Labels 4) : Option (List Int) :=
  match azpFit .rowMajor (fun _ => 0) (pairwise manhattan) 20 path4 (column ![0, 5, 5, 0]) 2
      (some init) (.azp 0 : Strat 4 0) fun _ => 0 with
  | .ok (L, _, _) => some (arrayList L)
  | _ => none

/-- Names in the same order: the same regions.  The hypotheses of C93 hold. -/
example : azpNames ![0, 0, 1, 1] = some [0, 1, 1, 1] ∧ azpNames ![-5, -5, 7, 7] = some [-5, 7, 7, 7] ∧
    Feasible path4 (![0, 0, 1, 1] : Labels 4) 2 ∧
    (∀ i, (![0, 0, 1, 1] : Labels 4) i ≠ -1) ∧ (∀ i, (![-5, -5, 7, 7] : Labels 4) i ≠ -1) ∧
    SameNameOrder (![0, 0, 1, 1] : Labels 4) ![-5, -5, 7, 7] :=
  ⟨by decide +kernel, by decide +kernel, path4_feasible2, by decide, by decide,
    by unfold SameNameOrder; decide⟩

/-- The order of the names does matter to AZP: exchanging the two names changes the result, on the
same map, from the same partition and with the same random numbers. -/
theorem c93_azp_order_matters :
    SamePartition (![0, 0, 1, 1] : Labels 4) ![1, 1, 0, 0] ∧
    azpNames ![0, 0, 1, 1] = some [0, 1, 1, 1] ∧ azpNames ![1, 1, 0, 0] = some [1, 1, 1, 0] :=
  ⟨by unfold SamePartition; decide, by decide +kernel, by decide +kernel⟩

/-- The name -1 matters: a region of that name is never changed, and its areas are never looked at. -/
theorem c93_minus_one_matters :
    SameNameOrder (![0, 0, 1, 1] : Labels 4) ![-1, -1, 1, 1] ∧
    azpNames ![0, 0, 1, 1] = some [0, 1, 1, 1] ∧ azpNames ![-1, -1, 1, 1] = some [-1, -1, 1, 1] :=
  ⟨by unfold SameNameOrder; decide, by decide +kernel, by decide +kernel⟩

/-- The labels the basic tabu search returns on the path of four areas, or nothing. -/
def tabuNames (init : Labels 4) : Option (List Int) :=
  match basicTabuFit .rowMajor (fun _ => 0) (pairwise manhattan) 20 (some 3) 2 path4
      (column ![0, 5, 5, 0]) 2 (some init) (.azp 0 : Strat 4 0) fun _ => 0 with
  | .ok (L, _, _) => some (arrayList L)
  | _ => none

example : tabuNames ![0, 0, 1, 1] = some [0, 1, 1, 1] ∧ tabuNames ![9, 9, 4, 4] = some [9, 4, 4, 4] ∧
    SamePartition (![0, 0, 1, 1] : Labels 4) ![9, 9, 4, 4] :=
  ⟨by decide +kernel, by decide +kernel, by unfold SamePartition; decide⟩

end Region.Props
