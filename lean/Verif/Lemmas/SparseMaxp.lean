import Verif.Lemmas.SparseAzp
import Verif.Model.SparseMaxp
/-
The construction phase of max-p on a matrix with stored values: growing regions only sees which values are
not zero, assigning the enclaves sees which entries are stored.
-/
namespace Region.Csr

open Region Spec

section
variable {n q : Nat} {ρ : Type} (metric : ρ → ρ → ℚ) (A : Csr n) (attr : Fin n → ρ)
  (spat : Fin n → Fin q → ℚ) (thr : Fin q → ℚ)

theorem contains_neighbors (a v : Fin n) : (A.neighbors a).contains v = A.nonzero a v := by
  rw [neighbors_eq, Bool.eq_iff_iff]
  simp [Region.neighbors]

theorem storedNeighbors_eq (a : Fin n) : A.storedNeighbors a = Region.neighbors A.stored a := by
  have h2 : (Region.neighbors A.stored a).Pairwise (· < ·) := (List.pairwise_lt_finRange n).filter _
  refine List.Perm.eq_of_pairwise (le := fun x y => x < y) (fun x y _ _ h h' => absurd h (lt_asymm h'))
    (A.sorted a) h2 ?_
  unfold storedNeighbors
  rw [List.perm_ext_iff_of_nodup (rows_nodup A a) (h2.imp fun h => ne_of_lt h)]
  intro v
  simp [Region.neighbors, stored]

theorem growInner_eq (fuel : Nat) :
    ∀ (region cands : List (Fin n)) (s : Fin q → ℚ) (un as : List (Fin n)) (r : Rng),
      growInner metric A attr spat thr fuel region cands s un as r =
        Region.growInner metric A.nonzero attr spat thr fuel region cands s un as r := by
  induction fuel with
  | zero => intro region cands s un as r; unfold growInner Region.growInner; rfl
  | succ fuel ih =>
    intro region cands s un as r
    unfold growInner Region.growInner
    simp only [ih, contains_neighbors]

theorem growLoop_eq (fuel : Nat) :
    ∀ (partition : List (List (Fin n))) (enclaves un as : List (Fin n)) (r : Rng),
      growLoop metric A attr spat thr fuel partition enclaves un as r =
        Region.growLoop metric A.nonzero attr spat thr fuel partition enclaves un as r := by
  induction fuel with
  | zero => intro partition enclaves un as r; cases un <;> rfl
  | succ fuel ih =>
    intro partition enclaves un as r
    cases un with
    | nil => rfl
    | cons x xs =>
      unfold growLoop Region.growLoop
      simp only [ih, contains_neighbors, growInner_eq]

theorem construct_eq (it : Nat) :
    ∀ (maxP : Nat) (kept : List (List (List (Fin n)) × List (Fin n))) (r : Rng),
      construct metric A attr spat thr it maxP kept r =
        Region.construct metric A.nonzero attr spat thr it maxP kept r := by
  induction it with
  | zero => intro maxP kept r; rfl
  | succ it ih =>
    intro maxP kept r
    unfold construct Region.construct growRegions Region.growRegions
    simp only [ih, growLoop_eq]

theorem assignLoop_eq (fuel : Nat) :
    ∀ (partition : List (List (Fin n))) (enclaves : List (Fin n)) (r : Rng),
      assignLoop metric A attr fuel partition enclaves r =
        Region.assignLoop metric A.stored attr fuel partition enclaves r := by
  induction fuel with
  | zero => intro partition enclaves r; cases enclaves <;> rfl
  | succ fuel ih =>
    intro partition enclaves r
    cases enclaves with
    | nil => rfl
    | cons e es =>
      unfold assignLoop Region.assignLoop
      simp only [ih, storedNeighbors_eq]

theorem assignAll_eq (kept : List (List (List (Fin n)) × List (Fin n))) :
    ∀ r : Rng, assignAll metric A attr kept r = Region.assignAll metric A.stored attr kept r := by
  induction kept with
  | nil => intro r; rfl
  | cons pe rest ih =>
    intro r
    unfold assignAll Region.assignAll assignEnclaves Region.assignEnclaves
    simp only [ih, assignLoop_eq]

end

/-- The whole method without stored zeros, for a local search that only sees which values are not zero. -/
theorem maxpFit_eq {ς : Type} {n q : Nat} {ρ : Type} (ls : LocalSearch ς n q) (metric : ρ → ρ → ℚ)
    (obj : Objective ρ) {A : Csr n} (h : A.Clean) (attr : Fin n → ρ) (spat : Fin n → Fin q → ℚ)
    (thr : Fin q → ℚ) (maxIt : Nat) (st : ς) (r : Rng) :
    maxpFit ls metric obj A attr spat thr maxIt st r =
      Region.maxpFit ls metric obj A.nonzero attr spat thr maxIt st r := by
  unfold maxpFit Region.maxpFit
  simp only [construct_eq, assignAll_eq, h.stored]

end Region.Csr

namespace Region

theorem labelsOfPartition_nonneg {n : Nat} {P : List (List (Fin n))} {L : Labels n}
    (h : labelsOfPartition P = .ok L) (v : Fin n) : L v ≠ -1 := by
  unfold labelsOfPartition at h
  obtain ⟨l, _, h⟩ := Res.bind_eq_ok.1 h
  split_ifs at h
  cases h
  dsimp only
  omega

section
variable {ς : Type} {n q : Nat} {ρ : Type} (ls : LocalSearch ς n q) (obj : Objective ρ)
  (attr : Fin n → ρ) (maxP : Nat) {O : Labels n → Prop}

theorem searchInner_keeps
    (hfit : ∀ init st r L st' r', (∀ v, init v ≠ -1) → ls.fit maxP init st r = .ok (some L, st', r') →
      O L) : ∀ (ps : List (List (List (Fin n)))) (best : Option (Labels n × ℚ)) (st : ς) (r : Rng),
      (∀ L v, best = some (L, v) → O L) →
      (searchInner ls obj attr maxP ps best st r).Post True True fun p =>
        ∀ L v, p.1 = some (L, v) → O L := by
  intro ps
  induction ps with
  | nil => intro best st r hb; exact hb
  | cons P ps ih =>
    intro best st r hb
    unfold searchInner
    refine Res.Post.bind (Q := fun L => ∀ v, L v ≠ -1) ?_ ?_
    · cases h : labelsOfPartition P with
      | ok L => exact labelsOfPartition_nonneg h
      | raise e => trivial
      | timeout => trivial
    · intro init _ hinit
      refine Res.Post.bind (Q := fun p => ∀ L, p.1 = some L → O L) ?_ ?_
      · cases h : ls.fit maxP init st r with
        | ok p =>
          obtain ⟨L, st', r'⟩ := p
          rintro L' rfl
          exact hfit init st r L' st' r' hinit h
        | raise e => trivial
        | timeout => trivial
      · rintro ⟨out, st', r'⟩ _ hO
        cases out with
        | none => trivial
        | some L =>
          refine ih _ st' r' ?_
          intro L' v' he
          cases best with
          | none => cases he; exact hO _ rfl
          | some b =>
            dsimp only at he
            split_ifs at he
            · cases he; exact hO _ rfl
            · cases he; exact hb _ _ rfl

theorem searchOuter_keeps
    (hfit : ∀ init st r L st' r', (∀ v, init v ≠ -1) → ls.fit maxP init st r = .ok (some L, st', r') →
      O L) (spat : Fin n → Fin q → ℚ) (thr : Fin q → ℚ) (feasible : List (List (List (Fin n)))) :
    ∀ (rounds : List (List (List (Fin n)))) (best : Option (Labels n × ℚ)) (st : ς) (r : Rng),
      (∀ L v, best = some (L, v) → O L) →
      (searchOuter ls obj attr maxP spat thr feasible rounds best st r).Post True True fun p =>
        ∀ L v, p.1 = some (L, v) → O L := by
  intro rounds
  induction rounds with
  | nil => intro best st r hb; exact hb
  | cons x rounds ih =>
    intro best st r hb
    unfold searchOuter
    refine Res.Post.bind (searchInner_keeps ls obj attr maxP hfit feasible best _ r hb) ?_
    rintro ⟨best', st', r'⟩ _ h
    exact ih best' st' r' h

end

end Region
