import Verif.Lemmas.SparseAzp
import Verif.Props.Azp
import Verif.Props.Sparse
/-
Property theorems C134: the weights of the adjacency matrix and the regionalization classes.
-/
namespace Region.Props

open Region Spec

section
variable {n q : Nat} {ρ : Type}

theorem azpFit_some (A : Csr n) (hz : A.Clean) (o : Csr.Order) (o' : MstOrder) (keep : Bool)
    (expf : ℚ → ℚ) (obj : Objective ρ) (fuel : Nat) (attr : Fin n → ρ) (p : Int) (init : Labels n)
    (st : Strat n q) (rng : Rng) :
    Csr.azpFit o expf obj fuel keep A attr p (some init) st rng =
      azpFit o' expf obj fuel A.nonzero attr p (some init) st rng :=
  Csr.fitWith_some_eq o o' keep hz attr (Csr.azpComp_eq (Or.inr hz) expf obj fuel) p init st rng

theorem react_comp (A : Csr n) (hz : A.Clean) (keep : Bool) (expf : ℚ → ℚ) (obj : Objective ρ)
    (maxIt : Nat) (k1 k2 : Int) (idx : List (Fin n)) (init : Labels idx.length)
    (at' : Fin idx.length → ρ) (self : ReactSelf (Strat n q)) (rng : Rng) :
    Csr.reactComponentList (Strat.ops expf (fun i => idx.get i) at' obj) obj at' keep
        (A.sub keep idx) maxIt k1 k2 init
        ⟨self.visited, self.avg, self.repCounter, self.strat.start (obj.call init at'), rng⟩ =
      reactComponentList (Strat.ops expf (fun i => idx.get i) at' obj) obj at'
        (subAdj A.nonzero idx) maxIt k1 k2 init
        ⟨self.visited, self.avg, self.repCounter, self.strat.start (obj.call init at'), rng⟩ := by
  rw [Csr.reactComponentList_eq _ _ _ (Csr.sub_ok (Or.inr hz) idx), Csr.nonzero_sub]

/-- C134 (only for matrices without stored zeros): from given labels every one of the four classes does
the same as on the 0/1 matrix of the areas that border each other: the same labels, exceptions, state of
the object and random draws, whatever the weights, on any map. -/
theorem c134_labels_partial (A : Csr n) (hz : ∀ i, ∀ e ∈ A.rows i, e.2 ≠ 0) (o : Csr.Order)
    (o' : MstOrder) (keep : Bool) (expf : ℚ → ℚ) (obj : Objective ρ) (attr : Fin n → ρ) (p : Int)
    (init : Labels n) (rng : Rng) :
    (∀ (fuel : Nat) (st : Strat n q), Csr.azpFit o expf obj fuel keep A attr p (some init) st rng =
      azpFit o' expf obj fuel (bordering A) attr p (some init) st rng) ∧
    (∀ (fuel : Nat) (len : Option Nat) (reps : Int) (st : Strat n q),
      Csr.basicTabuFit o expf obj fuel len reps keep A attr p (some init) st rng =
        basicTabuFit o' expf obj fuel len reps (bordering A) attr p (some init) st rng) ∧
    (∀ (maxIt : Nat) (k1 k2 : Int) (self : ReactSelf (Strat n q)),
      Csr.reactiveTabuFit o expf obj maxIt k1 k2 keep A attr p (some init) self rng =
        reactiveTabuFit o' expf obj maxIt k1 k2 (bordering A) attr p (some init) self rng) ∧
    ∀ (f1 f2 f3 : Nat) (P : SaParams) (self : SaObj) (cooling : ℚ),
      Csr.saFit o expf obj f1 f2 f3 P self keep A attr p (some init) cooling rng =
        saFit o' expf obj f1 f2 f3 P self (bordering A) attr p (some init) cooling rng := by
  have hc : A.Clean := hz
  rw [bordering_eq]
  refine ⟨fun fuel st => azpFit_some A hc o o' keep expf obj fuel attr p init st rng, ?_, ?_, ?_⟩
  · intro fuel len reps st
    exact Csr.fitWith_some_eq o o' keep hc attr
      (Csr.basicComp_eq (Or.inr hc) expf obj fuel len reps) p init st rng
  · intro maxIt k1 k2 self
    refine Csr.fitWith_some_eq o o' keep hc attr ?_ p init self rng
    intro idx init at' self rng
    simp only [react_comp A hc]
  · intro f1 f2 f3 P self cooling
    unfold Csr.saFit saFit
    simp only [Csr.saOuter_congr (fun L st rng =>
      azpFit_some A hc o o' keep expf obj f3 attr p L st rng)]

/-- C134 (only for matrices without stored zeros): two matrices that agree in which areas border each
other (the rows of one may be scaled to sum 1) give the same results from given labels. -/
theorem c134_alike_partial (A B : Csr n) (hA : ∀ i, ∀ e ∈ A.rows i, e.2 ≠ 0)
    (hB : ∀ i, ∀ e ∈ B.rows i, e.2 ≠ 0) (h : ∀ i j, A.value i j ≠ 0 ↔ B.value i j ≠ 0)
    (o₁ o₂ : Csr.Order) (keep : Bool) (expf : ℚ → ℚ) (obj : Objective ρ) (attr : Fin n → ρ) (p : Int)
    (init : Labels n) (rng : Rng) :
    (∀ (fuel : Nat) (st : Strat n q), Csr.azpFit o₁ expf obj fuel keep A attr p (some init) st rng =
      Csr.azpFit o₂ expf obj fuel keep B attr p (some init) st rng) ∧
    (∀ (fuel : Nat) (len : Option Nat) (reps : Int) (st : Strat n q),
      Csr.basicTabuFit o₁ expf obj fuel len reps keep A attr p (some init) st rng =
        Csr.basicTabuFit o₂ expf obj fuel len reps keep B attr p (some init) st rng) ∧
    (∀ (maxIt : Nat) (k1 k2 : Int) (self : ReactSelf (Strat n q)),
      Csr.reactiveTabuFit o₁ expf obj maxIt k1 k2 keep A attr p (some init) self rng =
        Csr.reactiveTabuFit o₂ expf obj maxIt k1 k2 keep B attr p (some init) self rng) ∧
    ∀ (f1 f2 f3 : Nat) (P : SaParams) (self : SaObj) (cooling : ℚ),
      Csr.saFit o₁ expf obj f1 f2 f3 P self keep A attr p (some init) cooling rng =
        Csr.saFit o₂ expf obj f1 f2 f3 P self keep B attr p (some init) cooling rng := by
  have he : bordering A = bordering B := by
    funext i j
    unfold bordering
    exact decide_eq_decide.2 (h i j)
  obtain ⟨a1, a2, a3, a4⟩ := c134_labels_partial (q := q) A hA o₁ .rowMajor keep expf obj attr p init rng
  obtain ⟨b1, b2, b3, b4⟩ := c134_labels_partial (q := q) B hB o₂ .rowMajor keep expf obj attr p init rng
  rw [he] at a1 a2 a3 a4
  exact ⟨fun f s => (a1 f s).trans (b1 f s).symm, fun f l r s => (a2 f l r s).trans (b2 f l r s).symm,
    fun m x y s => (a3 m x y s).trans (b3 m x y s).symm,
    fun x y z P s c => (a4 x y z P s c).trans (b4 x y z P s c).symm⟩

/-- C134 (only for matrices without stored zeros): on a connected map, from scratch, the weights only
decide in which order equally good links enter the spanning tree: there is an order of the links of the
0/1 matrix with which all four classes do the same as on the matrix of weights. -/
theorem c134_connected_partial (A : Csr n) (hz : ∀ i, ∀ e ∈ A.rows i, e.2 ≠ 0)
    (hcon : Connected (bordering A)) (o : Csr.Order) (keep : Bool) :
    ∃ o' : MstOrder, ∀ {q : Nat} {ρ : Type} (expf : ℚ → ℚ) (obj : Objective ρ) (attr : Fin n → ρ)
      (p : Int) (initial : Option (Labels n)) (rng : Rng),
    (∀ (fuel : Nat) (st : Strat n q), Csr.azpFit o expf obj fuel keep A attr p initial st rng =
      azpFit o' expf obj fuel (bordering A) attr p initial st rng) ∧
    (∀ (fuel : Nat) (len : Option Nat) (reps : Int) (st : Strat n q),
      Csr.basicTabuFit o expf obj fuel len reps keep A attr p initial st rng =
        basicTabuFit o' expf obj fuel len reps (bordering A) attr p initial st rng) ∧
    (∀ (maxIt : Nat) (k1 k2 : Int) (self : ReactSelf (Strat n q)),
      Csr.reactiveTabuFit o expf obj maxIt k1 k2 keep A attr p initial self rng =
        reactiveTabuFit o' expf obj maxIt k1 k2 (bordering A) attr p initial self rng) ∧
    ∀ (f1 f2 f3 : Nat) (P : SaParams) (self : SaObj) (cooling : ℚ),
      Csr.saFit o expf obj f1 f2 f3 P self keep A attr p initial cooling rng =
        saFit o' expf obj f1 f2 f3 P self (bordering A) attr p initial cooling rng := by
  have hc : A.Clean := hz
  rw [bordering_eq] at hcon ⊢
  obtain ⟨o', ho⟩ := Csr.fitWith_connected o keep hc hcon
  refine ⟨o', fun expf obj attr p initial rng => ?_⟩
  have hazp : ∀ {q : Nat} (fuel : Nat) (cur : Option (Labels n)) (st : Strat n q) (rng : Rng),
      Csr.azpFit o expf obj fuel keep A attr p cur st rng =
        azpFit o' expf obj fuel A.nonzero attr p cur st rng := fun fuel cur st rng =>
    ho attr _ _ (Csr.azpComp_eq (Or.inr hc) expf obj fuel) p cur st rng
  refine ⟨fun fuel st => hazp fuel initial st rng, ?_, ?_, ?_⟩
  · intro fuel len reps st
    exact ho attr _ _ (Csr.basicComp_eq (Or.inr hc) expf obj fuel len reps) p initial st rng
  · intro maxIt k1 k2 self
    refine ho attr _ _ ?_ p initial self rng
    intro idx init at' self rng
    simp only [react_comp A hc]
  · intro f1 f2 f3 P self cooling
    unfold Csr.saFit saFit
    simp only [hazp]

/-- One component of a map, from a clustering into contiguous regions. -/
theorem azp_step {adj : Adj n} (hs : Symmetric adj) (expf : ℚ → ℚ) {obj : Objective ρ} (he : obj.Exact)
    (ht : obj.Total) (attr : Fin n → ρ) (idx : List (Fin n)) (hne : idx ≠ []) (hnd : idx.Nodup)
    (lab : Labels n) (hcont : AllContiguous (subAdj adj idx) fun i => lab (idx.get i)) (fuel : Nat)
    (hf : n + n ^ n < fuel) (st : Strat n q) (rng : Rng) :
    (azpComp expf obj fuel idx (subAdj adj idx) (fun i => lab (idx.get i)) (fun i => attr (idx.get i)) st
      rng).Post False False fun r =>
        KeepsRegions (subAdj adj idx) (fun i => lab (idx.get i)) r.1 ∧ True := by
  have hlen : idx.length ≤ n := by
    have := hnd.length_le_card
    simpa using this
  have hk : 0 < idx.length := List.length_pos_iff.2 hne
  have hnum : numRegions (fun i => lab (idx.get i)) ≤ idx.length := by
    unfold numRegions
    exact Finset.card_image_le.trans (by simp)
  have hpow : numRegions (fun i => lab (idx.get i)) ^ idx.length ≤ n ^ n :=
    (Nat.pow_le_pow_left (hnum.trans hlen) _).trans (Nat.pow_le_pow_right (by omega) hlen)
  obtain ⟨out, ho⟩ := c24_component_terminates (q := q) expf he ht idx hne
    (subAdj adj idx) (fun i => lab (idx.get i)) (fun i => attr (idx.get i)) fuel (by omega)
    st rng
  have hok : StratOk (Strat.ops (q := q) expf (fun i => idx.get i) (fun i => attr (idx.get i)) obj)
      (subAdj adj idx) (fun _ _ => True) True True := by
    intro labels st a r rng _ _ _
    generalize (Strat.ops expf (fun i => idx.get i) (fun i => attr (idx.get i)) obj).call st a r
      labels rng = x
    cases x <;> trivial
  have hpost := (azpComponent_post (subAdj_symm hs idx) hok fuel _ hk hcont _ trivial
    (fun _ => 0) (fun h => absurd trivial h) rng).ok ho
  rw [ho]
  exact ⟨⟨hpost.2.1, reach_image hpost.2.2.1⟩, trivial⟩

/-- C134 (only for matrices without stored zeros): from scratch, on a map with any number of islands and
whatever the weights are, `AZP.fit` returns a clustering into exactly `p` contiguous regions labelled
`0 … p-1`. -/
theorem c134_scratch_partial (A : Csr n) (hz : ∀ i, ∀ e ∈ A.rows i, e.2 ≠ 0)
    (hs : Symmetric (bordering A)) (o : Csr.Order) (keep : Bool) (expf : ℚ → ℚ) {obj : Objective ρ}
    (he : obj.Exact) (ht : obj.Total) (attr : Fin n → ρ) (p : Nat) (h2 : 2 ≤ p) (hpn : p ≤ n)
    (island : Fin n → Nat) (hi : ∀ a b, island a = island b ↔ SameIsland (bordering A) a b)
    (hcomp : numRegions island ≤ p) (fuel : Nat) (hf : n + n ^ n < fuel) (st : Strat n q)
    (rng : Rng) :
    ∃ labels st' rng', Csr.azpFit o expf obj fuel keep A attr p none st rng = .ok (labels, st', rng') ∧
      Feasible (bordering A) labels p ∧ ∀ v, 0 ≤ labels v ∧ labels v < p := by
  have hc : A.Clean := hz
  rw [bordering_eq] at hs hi ⊢
  rw [c07_nComponents A.nonzero island hi] at hcomp
  have := Csr.fitWith_none_post (σ := Strat n q) o keep hc (attr := attr)
    (Csr.azpComp_eq (Or.inr hc) expf obj fuel) (S := fun _ => True)
    (Q := fun idx init out => KeepsRegions (subAdj A.nonzero idx) init out) (R := False) (T := False) p
    (fun _ => ⟨by omega, by exact_mod_cast hpn, by omega, by exact_mod_cast hcomp⟩) (by
      intro lab hlab c hcc st rng _
      have hcont := comp_contiguous hlab.1 c
      have he' : (fun i => compArray A.nonzero lab c ((shown (compArray A.nonzero lab c)).get i)) =
          fun i => lab ((shown (compArray A.nonzero lab c)).get i) := by
        funext i
        have hi := mem_shown.1 (List.get_mem (shown (compArray A.nonzero lab c)) i)
        have := (compArray_ne.1 hi).1
        change (if compLabels A.nonzero ((shown (compArray A.nonzero lab c)).get i) = c
          then _ else _) = _
        rw [if_pos this]
      rw [he']
      have hne : shown (compArray A.nonzero lab c) ≠ [] := by
        obtain ⟨w, hw⟩ := compLabels_surj A.nonzero hcc
        intro h
        have : w ∈ shown (compArray A.nonzero lab c) := by
          rw [mem_shown, compArray_ne]
          exact ⟨hw, by have := (hlab.2.2 w).1; omega⟩
        rw [h] at this; cases this
      have hnd := shown_nodup (compArray A.nonzero lab c)
      generalize shown (compArray A.nonzero lab c) = idx at hcont hne hnd ⊢
      exact azp_step hs expf he ht attr idx hne hnd lab hcont fuel hf st rng) st trivial rng
  obtain ⟨⟨labels, st', rng'⟩, h, _, lab, ⟨h3, h4, h5⟩, hf⟩ := this.total
  obtain ⟨g1, g2⟩ := fit_result hf
  have hfit := fitOk_of_keeps h3 g1 g2
  have h4' : numRegions lab = p := by exact_mod_cast h4
  refine ⟨labels, st', rng', h, ⟨hfit.contiguous, by rw [FitOk.numRegions_eq hfit, h4']⟩, ?_⟩
  intro v
  obtain ⟨u, hu⟩ := (hfit.image (labels v)).1 ⟨v, rfl⟩
  rw [← hu]; exact h5 u

/-- C134: if indexing drops stored zeros, then with any matrix, stored zeros or not, `AZP.fit` makes of
a clustering into contiguous regions a clustering into the same number of contiguous regions with the same
labels, whatever is drawn. -/
theorem c134_zeros_dropped (A : Csr n) (hs : Symmetric (bordering A)) (o : Csr.Order)
    (expf : ℚ → ℚ) {obj : Objective ρ} (he : obj.Exact) (ht : obj.Total) (attr : Fin n → ρ) (p : Nat)
    (init : Labels n) (hi : Feasible (bordering A) init p) (hm : ∀ v, init v ≠ -1) (fuel : Nat)
    (hf : n + n ^ n < fuel) (st : Strat n q) (rng : Rng) :
    ∃ labels st' rng',
      Csr.azpFit o expf obj fuel false A attr p (some init) st rng = .ok (labels, st', rng') ∧
      Feasible (bordering A) labels p ∧ ∀ x, (∃ v, labels v = x) ↔ ∃ v, init v = x := by
  rw [bordering_eq] at hs hi ⊢
  have hle := Csr.nonzero_le_stored A
  unfold Csr.azpFit
  rw [Csr.fitWith_dropped (σ := Strat n q) o .rowMajor A attr (Csr.azpComp_eq (Or.inl rfl) expf obj fuel)
    p init hi.1 (by exact_mod_cast hi.2) st rng]
  have := fitWith_post (σ := Strat n q) .rowMajor (adj := A.stored) (attr := attr)
    (comp := fun idx _ init at' st rng =>
      azpComp expf obj fuel idx (subAdj A.nonzero idx) init at' st rng) (S := fun _ => True)
    (Q := fun idx init out => KeepsRegions (subAdj A.nonzero idx) init out) (R := False) (T := False) p
    (some init) (fun _ => ⟨fun v => ⟨(hi.1 v).1, fun a ha b hb =>
      Csr.pathIn_le hle ((hi.1 v).2 a ha b hb)⟩, by exact_mod_cast hi.2⟩) (by
      rintro lab ⟨_, _, rfl⟩ c hcc st rng _
      have hcont := Csr.comp_contiguous_of_le hle hi.1 c
      have he' : (fun i => compArray A.stored lab c ((shown (compArray A.stored lab c)).get i)) =
          fun i => lab ((shown (compArray A.stored lab c)).get i) := by
        funext i
        have hi := mem_shown.1 (List.get_mem (shown (compArray A.stored lab c)) i)
        have := (compArray_ne.1 hi).1
        change (if compLabels A.stored ((shown (compArray A.stored lab c)).get i) = c
          then _ else _) = _
        rw [if_pos this]
      rw [he']
      have hne : shown (compArray A.stored lab c) ≠ [] := by
        obtain ⟨w, hw⟩ := compLabels_surj A.stored hcc
        intro h
        have : w ∈ shown (compArray A.stored lab c) := by
          rw [mem_shown, compArray_ne]
          exact ⟨hw, hm w⟩
        rw [h] at this; cases this
      have hnd := shown_nodup (compArray A.stored lab c)
      generalize shown (compArray A.stored lab c) = idx at hcont hne hnd ⊢
      exact azp_step hs expf he ht attr idx hne hnd lab hcont fuel hf st rng) st trivial rng
  obtain ⟨⟨labels, st', rng'⟩, h, _, lab, ⟨_, _, rfl⟩, hfit⟩ := this.total
  obtain ⟨g1, g2⟩ := fit_result hfit
  obtain ⟨k1, k2⟩ := Csr.feasible_of_keeps hle hi.1 g1 g2
  refine ⟨labels, st', rng', h, ⟨k1, ?_⟩, k2⟩
  rw [← hi.2]
  unfold numRegions
  congr 1
  ext x
  simpa using k2 x

end

/-- The path 0-1-2-3 with every row scaled to sum 1. -/
def rowStandardized4 : Csr 4 where
  rows := ![[(1, 1)], [(0, 1 / 2), (2, 1 / 2)], [(1, 1 / 2), (3, 1 / 2)], [(2, 1)]]
  sorted := by decide +kernel

example : (∀ i, ∀ e ∈ rowStandardized4.rows i, e.2 ≠ 0) ∧
    (∀ i, ∀ e ∈ (weighted4 1 1 1).rows i, e.2 ≠ 0) ∧
    (∀ i j, rowStandardized4.value i j ≠ 0 ↔ (weighted4 1 1 1).value i j ≠ 0) ∧
    Symmetric (bordering rowStandardized4) ∧ Connected (bordering rowStandardized4) ∧
    rowStandardized4.value 0 1 ≠ rowStandardized4.value 1 0 := by
  refine ⟨by decide +kernel, by decide +kernel, by decide +kernel, ?_, ?_, by decide +kernel⟩
  · intro a b; revert a b; decide +kernel
  · rw [← c01_is_connected]; decide +kernel

/-- A run on the row-standardized path with attributes 0, 1, 2, 3 from an unbalanced clustering. -/
example : (match Csr.azpFit (q := 0) Csr.Order.stable (fun _ => 0) (pairwise manhattan) 20 true rowStandardized4
      (ramp 4) 2 (some ![0, 1, 1, 1]) (.azp 0) fun _ => 0 with
    | .ok (L, _, _) => arrayList L
    | _ => []) = [0, 0, 1, 1] := by decide +kernel

/-- Three areas bordering each other with the weights `a` (0 and 1), `b` (0 and 2) and `c` (1 and 2). -/
def weightedTriangle (a b c : ℚ) : Csr 3 where
  rows := ![[(1, a), (2, b)], [(0, a), (2, c)], [(0, b), (1, c)]]
  sorted := by
    have h : ∀ i : Fin 3, ((![[1, 2], [0, 2], [0, 1]] : Fin 3 → List (Fin 3)) i).Pairwise (· < ·) := by
      decide
    intro i
    match i with
    | 0 => exact h 0
    | 1 => exact h 1
    | 2 => exact h 2

/-- C134, not without given labels: from scratch the weights matter.  On three areas with equal attributes
that all border each other, with the same draws, two matrices without stored zeros that agree in which
areas border each other give different clusterings. -/
theorem c134_weights_matter :
    (∀ i j, (weightedTriangle 1 1 2).value i j ≠ 0 ↔ (weightedTriangle 2 1 1).value i j ≠ 0) ∧
    (match Csr.azpFit (q := 0) Csr.Order.stable (fun _ => 0) (pairwise manhattan) 40 true (weightedTriangle 1 1 2)
        (fun _ => (![0] : Row 1)) 2 none (.azp 0) (fun _ => 0),
      Csr.azpFit (q := 0) Csr.Order.stable (fun _ => 0) (pairwise manhattan) 40 true (weightedTriangle 2 1 1)
        (fun _ => (![0] : Row 1)) 2 none (.azp 0) (fun _ => 0) with
    | .ok (L, _, _), .ok (M, _, _) => decide (∀ i j, L i = L j ↔ M i = M j)
    | _, _ => true) = false := by
  decide +kernel

/-- The star with centre 1 and an additional stored zero between the areas 0 and 2. -/
def zeroStar : Csr 4 where
  rows := ![[(1, 1), (2, 0)], [(0, 1), (2, 1), (3, 1)], [(0, 0), (1, 1)], [(1, 1)]]
  sorted := by decide +kernel

/-- C134, not with stored zeros: if indexing keeps them, AZP leaves a clustering into contiguous regions
for one that is not contiguous: the area 1 may be moved although the rest of its region falls apart. -/
theorem c134_stored_zero :
    Feasible (bordering zeroStar) (![5, 5, 5, 6] : Labels 4) 2 ∧
    ∃ L st rng', Csr.azpFit (q := 0) Csr.Order.stable (fun _ => 0) (pairwise manhattan) 40 true zeroStar
      (![![0], ![9], ![0], ![9]] : Fin 4 → Row 1) 2 (some ![5, 5, 5, 6]) (.azp 0) (fun _ => 0) =
        .ok (L, st, rng') ∧
      arrayList L = [5, 6, 5, 6] ∧ ¬ Feasible (bordering zeroStar) L 2 := by
  have h : (match Csr.azpFit (q := 0) Csr.Order.stable (fun _ => 0) (pairwise manhattan) 40 true zeroStar
      (![![0], ![9], ![0], ![9]] : Fin 4 → Row 1) 2 (some ![5, 5, 5, 6]) (.azp 0) (fun _ => 0) with
    | .ok (L, _, _) => decide (arrayList L = [5, 6, 5, 6]) &&
        !(assertFeasible L (bordering zeroStar) (some 2)).isOk
    | _ => false) = true := by decide +kernel
  refine ⟨?_, ?_⟩
  · have := (c04_assert_feasible_ok (![5, 5, 5, 6] : Labels 4) (bordering zeroStar) (some 2)).1
      (by decide +kernel)
    exact ⟨this.1, by have := this.2 2 rfl; exact_mod_cast this⟩
  · cases hr : Csr.azpFit (q := 0) Csr.Order.stable (fun _ => 0) (pairwise manhattan) 40 true zeroStar
      (![![0], ![9], ![0], ![9]] : Fin 4 → Row 1) 2 (some ![5, 5, 5, 6]) (.azp 0) (fun _ => 0) with
    | ok x =>
      obtain ⟨L, st, rng'⟩ := x
      rw [hr] at h
      simp only [Bool.and_eq_true, decide_eq_true_eq, Bool.not_eq_true'] at h
      refine ⟨L, st, rng', rfl, h.1, fun hf => ?_⟩
      rw [(c04_assert_feasible_ok L (bordering zeroStar) (some 2)).2
        ⟨hf.1, fun q hq => by cases hq; exact_mod_cast hf.2⟩] at h
      exact absurd h.2 (by decide)
    | raise e => rw [hr] at h; cases h
    | timeout => rw [hr] at h; cases h

/-- The same start if indexing drops stored zeros. -/
example : Symmetric (bordering zeroStar) ∧ zeroStar.stored 0 2 = true ∧ zeroStar.value 0 2 = 0 ∧
    (∀ v, (![5, 5, 5, 6] : Labels 4) v ≠ -1) ∧
    (match Csr.azpFit (q := 0) Csr.Order.stable (fun _ => 0) (pairwise manhattan) 40 false zeroStar
      (![![0], ![9], ![0], ![9]] : Fin 4 → Row 1) 2 (some ![5, 5, 5, 6]) (.azp 0) (fun _ => 0) with
    | .ok (L, _, _) => (assertFeasible L (bordering zeroStar) (some 2)).isOk
    | _ => false) = true := by
  refine ⟨?_, by decide +kernel, by decide +kernel, by decide, by decide +kernel⟩
  intro a b; revert a b; decide +kernel

end Region.Props
