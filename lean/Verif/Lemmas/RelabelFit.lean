import Mathlib.Logic.Equiv.Nat
import Verif.Lemmas.RelabelTabu
import Verif.Lemmas.AzpSa
/-
Fits that differ in the names of the regions of the initial clustering only.
-/
namespace Region

open Res Spec

section fit
variable {σ ρ : Type} {n : Nat} {f : Int → Int} (hf : Function.Injective f) (h1 : f (-1) = -1)
  {SR : σ → σ → Prop} {adj : Adj n} {attr : Fin n → ρ}
  {comp : (idx : List (Fin n)) → Adj idx.length → Labels idx.length → (Fin idx.length → ρ) →
    σ → Rng → Res (Labels idx.length × σ × Rng)}
include hf h1

omit hf h1 in
theorem scatter_relabel (idx : List (Fin n)) (v : Fin idx.length → Int) (base : Labels n) :
    scatter idx (fun i => f (v i)) (fun i => f (base i)) = fun i => f (scatter idx v base i) := by
  funext i
  unfold scatter
  split_ifs <;> rfl

theorem fitStep_relabel (y : Labels n)
    (hcomp : ∀ st st' rng, SR st st' →
      Rel (RenamedOut f SR)
        (comp (shown y) (subAdj adj (shown y)) (fun i => y ((shown y).get i))
          (fun i => attr ((shown y).get i)) st rng)
        (comp (shown y) (subAdj adj (shown y)) (fun i => f (y ((shown y).get i)))
          (fun i => attr ((shown y).get i)) st' rng))
    (labels : Labels n) {st st' : σ} (h : SR st st') (rng : Rng) :
    Rel (RenamedOut f SR) (fitStep adj attr comp y labels st rng)
      (fitStep adj attr comp (fun i => f (y i)) (fun i => f (labels i)) st' rng) := by
  have hidx : (List.finRange n).filter (fun i => decide (f (y i) ≠ -1)) = shown y := by
    unfold shown
    refine List.filter_congr fun i _ => ?_
    have : f (y i) ≠ -1 ↔ y i ≠ -1 := by
      conv_lhs => rw [← h1]
      exact not_congr hf.eq_iff
    simp only [this]
  unfold fitStep
  dsimp only
  rw [hidx]
  refine Rel.bind (hcomp st st' rng h) ?_
  rintro ⟨l, s, r⟩ ⟨l', s', r'⟩ ⟨e1, e2, e3⟩
  dsimp only at e1 e2 e3 ⊢
  subst e1 e3
  exact ⟨scatter_relabel _ _ _, e2, rfl⟩

theorem fitLoop_relabel : ∀ (ys : List (Labels n))
    (_ : ∀ y ∈ ys, ∀ st st' rng, SR st st' →
      Rel (RenamedOut f SR)
        (comp (shown y) (subAdj adj (shown y)) (fun i => y ((shown y).get i))
          (fun i => attr ((shown y).get i)) st rng)
        (comp (shown y) (subAdj adj (shown y)) (fun i => f (y ((shown y).get i)))
          (fun i => attr ((shown y).get i)) st' rng))
    (labels : Labels n) {st st' : σ} (_ : SR st st') (rng : Rng),
    Rel (RenamedOut f SR)
      (fitLoop adj attr comp (ys.map fun y r => .ok (.array y, r)) labels st rng)
      (fitLoop adj attr comp ((ys.map fun y i => f (y i)).map fun y r => .ok (.array y, r))
        (fun i => f (labels i)) st' rng) := by
  intro ys
  induction ys with
  | nil => intro _ labels st st' h rng; exact ⟨rfl, h, rfl⟩
  | cons y ys ih =>
    intro hcomp labels st st' h rng
    simp only [List.map_cons]
    unfold fitLoop
    simp only [Res.bind_ok]
    refine Rel.bind (fitStep_relabel hf h1 y (hcomp y (by simp)) labels h rng) ?_
    rintro ⟨l, s, r⟩ ⟨l', s', r'⟩ ⟨e1, e2, e3⟩
    dsimp only at e1 e2 e3 ⊢
    subst e1 e3
    exact ih (fun y hy => hcomp y (by simp [hy])) l e2 _

omit h1 in
theorem allContiguous_relabel {lab : Labels n} (h : AllContiguous adj lab) :
    AllContiguous adj fun i => f (lab i) := by
  intro v
  have := h v
  unfold regionOf at this ⊢
  simpa only [hf.eq_iff] using this

omit h1 in
theorem numRegions_relabel (lab : Labels n) : numRegions (fun i => f (lab i)) = numRegions lab := by
  unfold numRegions
  rw [show (fun i => f (lab i)) = f ∘ lab from rfl, ← Finset.image_image,
    Finset.card_image_of_injective _ hf]

theorem fitWith_relabel (o : MstOrder) {p : Int} {init : Labels n}
    (hfeas : AllContiguous adj init ∧ (numRegions init : Int) = p)
    (hcomp : ∀ y, (∀ i, y i ≠ -1 → y i = init i) → ∀ st st' rng, SR st st' →
      Rel (RenamedOut f SR)
        (comp (shown y) (subAdj adj (shown y)) (fun i => y ((shown y).get i))
          (fun i => attr ((shown y).get i)) st rng)
        (comp (shown y) (subAdj adj (shown y)) (fun i => f (y ((shown y).get i)))
          (fun i => attr ((shown y).get i)) st' rng))
    {st st' : σ} (h : SR st st') (rng : Rng) :
    Rel (RenamedOut f SR) (fitWith o adj attr comp p (some init) st rng)
      (fitWith o adj attr comp p (some fun i => f (init i)) st' rng) := by
  have ha := (Props.c04_assert_feasible_ok init adj (some p)).2 ⟨hfeas.1, by simpa using hfeas.2⟩
  have ha' := (Props.c04_assert_feasible_ok (fun i => f (init i)) adj (some p)).2
    ⟨allContiguous_relabel hf hfeas.1, by rw [numRegions_relabel hf]; simpa using hfeas.2⟩
  unfold fitWith
  dsimp only
  rw [ha, ha', Res.bind_ok, Res.bind_ok]
  have hs : separateComponents adj (fun i => f (init i)) =
      (separateComponents adj init).map fun y i => f (y i) := by
    unfold separateComponents
    rw [List.map_map]
    refine List.map_congr_left fun c _ => ?_
    funext i
    simp only [Function.comp]
    split_ifs
    · rfl
    · exact h1.symm
  have hb : (fun _ : Fin n => (-1 : Int)) = fun i => f ((fun _ => -1) i) := by
    funext i
    exact h1.symm
  rw [hs]
  conv => arg 3; rw [hb]
  refine fitLoop_relabel hf h1 _ ?_ _ h rng
  intro y hy
  apply hcomp
  intro i hi
  unfold separateComponents at hy
  obtain ⟨c, _, rfl⟩ := List.mem_map.1 hy
  dsimp only at hi ⊢
  split_ifs at hi ⊢ with hc
  · rfl
  · exact absurd rfl hi

end fit

/-- The objective depends on the partition only, for every selection of areas of the map. -/
def NameFreeOn {n : Nat} {ρ : Type} (obj : Objective ρ) (attr : Fin n → ρ) : Prop :=
  ∀ {k : Nat} (g : Fin k → Fin n), NameFree obj fun i => attr (g i)

section methods
variable {n q : Nat} {ρ : Type} {f : Int → Int} (hf : Function.Injective f) (h1 : f (-1) = -1)
  (o : MstOrder) (expf : ℚ → ℚ) {obj : Objective ρ} {adj : Adj n} {attr : Fin n → ρ}
  (hobj : NameFreeOn obj attr) {p : Int} {init : Labels n}
  (hfeas : AllContiguous adj init ∧ (numRegions init : Int) = p)
include hf h1 hobj hfeas

theorem azpFit_relabel (horder : ∀ i j, init i < init j ↔ f (init i) < f (init j)) (fuel : Nat)
    (st : Strat n q) (rng : Rng) :
    Rel (RenamedOut f Eq) (azpFit o expf obj fuel adj attr p (some init) st rng)
      (azpFit o expf obj fuel adj attr p (some fun i => f (init i)) st rng) := by
  unfold azpFit
  refine fitWith_relabel hf h1 o hfeas ?_ rfl rng
  rintro y hy st _ rng rfl
  unfold azpComp
  rw [(hobj _).call hf]
  refine azpComponent_relabel hf ?_ _ fuel _ ?_ _ rng
  · intro st a r l rng
    exact strat_call_relabel hf expf _ (hobj _) st a r l rng
  · intro i j
    have hi := hy _ (mem_shown.1 (List.get_mem (shown y) i))
    have hj := hy _ (mem_shown.1 (List.get_mem (shown y) j))
    rw [hi, hj]
    exact horder _ _

theorem basicTabuFit_relabel (fuel : Nat) (len : Option Nat) (reps : Int) (st : Strat n q)
    (rng : Rng) :
    Rel (RenamedOut f Eq)
      (basicTabuFit o expf obj fuel len reps adj attr p (some init) st rng)
      (basicTabuFit o expf obj fuel len reps adj attr p (some fun i => f (init i)) st rng) := by
  unfold basicTabuFit
  refine fitWith_relabel hf h1 o hfeas ?_ rfl rng
  rintro y hy st _ rng rfl
  rw [(hobj _).call hf]
  refine basicComponent_relabel hf (hobj _) ?_ _ len reps fuel _ _ rng
  intro st a r l rng
  exact strat_call_relabel hf expf _ (hobj _) st a r l rng

/-- The objects are the same up to the names of the regions. -/
structure ReactSelf.Renamed {σ : Type} (f : Int → Int) (s s' : ReactSelf σ) : Prop where
  visited : s'.visited = s.visited.map (List.map f)
  avg : s'.avg = s.avg
  repCounter : s'.repCounter = s.repCounter
  strat : s'.strat = s.strat

theorem reactiveTabuFit_relabel (maxIt : Nat) (k1 k2 : Int) {self self' : ReactSelf (Strat n q)}
    (hself : self.Renamed f self') (rng : Rng) :
    Rel (RenamedOut f (ReactSelf.Renamed f))
      (reactiveTabuFit o expf obj maxIt k1 k2 adj attr p (some init) self rng)
      (reactiveTabuFit o expf obj maxIt k1 k2 adj attr p (some fun i => f (init i)) self' rng) := by
  unfold reactiveTabuFit
  refine fitWith_relabel hf h1 o hfeas ?_ hself rng
  intro y hy s s' rng hs
  dsimp only
  rw [(hobj _).call hf]
  refine Rel.bind (reactComponentList_relabel hf (hobj _) ?_ _ maxIt k1 k2 _
    (self := ⟨s.visited, s.avg, s.repCounter, s.strat.start _, rng⟩) ?_) ?_
  · intro st a r l rng
    exact strat_call_relabel hf expf _ (hobj _) st a r l rng
  · exact ⟨hs.visited, hs.avg, hs.repCounter, by rw [hs.strat], rfl⟩
  · rintro ⟨l, t⟩ ⟨l', t'⟩ ⟨e1, e2⟩
    dsimp only at e1 e2 ⊢
    subst e1
    refine Rel.bind (fromArray_relabel f _ l) ?_
    rintro x _ rfl
    exact ⟨rfl, ⟨e2.visited, e2.avg, e2.repCounter, e2.strat⟩, e2.rng⟩

end methods

/-! ### Simulated annealing -/

section sa
variable {n : Nat} {f : Int → Int} (hf : Function.Injective f)
  {azp : Option (Labels n) → Strat n 0 → Rng → Res (Labels n × Strat n 0 × Rng)}
  {K : Labels n → Prop}
  (hK : ∀ cur, K cur → ∀ st rng, (azp (some cur) st rng).Post True True fun out => K out.1)
  (hazp : ∀ cur, K cur → ∀ st rng,
    Rel (RenamedOut f Eq) (azp (some cur) st rng) (azp (some fun i => f (cur i)) st rng))
include hf hK hazp

theorem saInner_relabel (maxIt : Option Int) : ∀ (fuel it : Nat) (cur : Labels n), K cur →
    ∀ (st : Strat n 0) (rng : Rng),
    Rel (fun x y => (∃ L, x.1 = some L ∧ K L ∧ y.1 = some fun i => f (L i)) ∧ y.2 = x.2)
      (saInner azp maxIt fuel it (some cur) st rng)
      (saInner azp maxIt fuel it (some fun i => f (cur i)) st rng) := by
  intro fuel
  induction fuel with
  | zero =>
    intro it cur hc st rng
    unfold saInner
    split_ifs
    · trivial
    · exact ⟨⟨cur, rfl, hc, rfl⟩, rfl⟩
  | succ fuel ih =>
    intro it cur hc st rng
    unfold saInner
    split_ifs
    · dsimp only
      have h1 := hK cur hc st rng
      have h2 := hazp cur hc st rng
      cases hx : azp (some cur) st rng with
      | ok x =>
        rw [hx] at h1 h2
        obtain ⟨y, hy, e1, e2, e3⟩ := h2.ok_left
        rw [hy, Res.bind_ok, Res.bind_ok]
        obtain ⟨l, s, r⟩ := x
        obtain ⟨l', s', r'⟩ := y
        dsimp only at e1 e2 e3 ⊢
        subst e1 e2 e3
        simp only [arrayList_relabel, (List.map_injective_iff.2 hf).eq_iff]
        split_ifs
        · exact ⟨⟨l, rfl, h1, rfl⟩, rfl⟩
        · exact ih _ l h1 _ _
      | raise e =>
        rw [hx] at h2
        cases hy : azp (some fun i => f (cur i)) st rng with
        | ok => rw [hy] at h2; exact h2.elim
        | raise e' => rw [hy] at h2; exact h2
        | timeout => rw [hy] at h2; exact h2.elim
      | timeout =>
        rw [hx] at h2
        cases hy : azp (some fun i => f (cur i)) st rng with
        | ok => rw [hy] at h2; exact h2.elim
        | raise e' => rw [hy] at h2; exact h2.elim
        | timeout => trivial
    · exact ⟨⟨cur, rfl, hc, rfl⟩, rfl⟩

theorem saOuter_relabel (P : SaParams) (cooling : ℚ) (innerFuel : Nat) : ∀ (fuel : Nat) (t : ℚ)
    (nm : Nat) (cur : Labels n), K cur → ∀ (vis : List (List Int)) (st : Strat n 0) (rng : Rng),
    Rel (fun x y => (∃ L, x.1 = some L ∧ K L ∧ y.1 = some fun i => f (L i)) ∧
        y.2.1 = x.2.1.map (List.map f) ∧ y.2.2 = x.2.2)
      (saOuter azp P cooling innerFuel fuel t nm (some cur) vis st rng)
      (saOuter azp P cooling innerFuel fuel t nm (some fun i => f (cur i)) (vis.map (List.map f))
        st rng) := by
  intro fuel
  induction fuel with
  | zero =>
    intro t nm cur hc vis st rng
    unfold saOuter
    split_ifs
    · trivial
    · exact ⟨⟨cur, rfl, hc, rfl⟩, rfl, rfl⟩
  | succ fuel ih =>
    intro t nm cur hc vis st rng
    unfold saOuter
    split_ifs
    · dsimp only
      refine Rel.bind (saInner_relabel hf hK hazp P.maxIt innerFuel 0 cur hc _ rng) ?_
      rintro ⟨x, s, r⟩ ⟨y, s', r'⟩ ⟨⟨L, e1, hL, e2⟩, e3⟩
      dsimp only at e1 e2
      simp only [Prod.mk.injEq] at e3
      obtain ⟨rfl, rfl⟩ := e3
      subst e1 e2
      dsimp only
      rw [count_visited_relabel hf]
      have hv : vis.map (List.map f) ++ [arrayList fun i => f (L i)] =
          (vis ++ [arrayList L]).map (List.map f) := by
        rw [arrayList_relabel, List.map_append]
        rfl
      rw [hv]
      split_ifs
      · exact ⟨⟨L, rfl, hL, rfl⟩, rfl, rfl⟩
      · exact ih _ _ L hL _ _ _
      · exact ih _ _ L hL _ _ _
    · exact ⟨⟨cur, rfl, hc, rfl⟩, rfl, rfl⟩

end sa

theorem saFit_relabel {n : Nat} {ρ : Type} {f : Int → Int} (hf : Function.Injective f)
    (h1 : f (-1) = -1) (o : MstOrder) (expf : ℚ → ℚ) {obj : Objective ρ} {adj : Adj n}
    (hs : Spec.Symmetric adj) {attr : Fin n → ρ}
    (hobj : NameFreeOn obj attr) {p : Int} {init : Labels n}
    (hfeas : AllContiguous adj init ∧ (numRegions init : Int) = p)
    (horder : ∀ i j, init i < init j ↔ f (init i) < f (init j)) (f1 f2 f3 : Nat) (P : SaParams)
    (self : SaObj) (cooling : ℚ) (rng : Rng) :
    Rel (fun x y => (∃ L, x.1 = some L ∧ y.1 = some fun i => f (L i)) ∧
        y.2.1.visited = x.2.1.visited.map (List.map f) ∧ y.2.1.moveMade = x.2.1.moveMade ∧
        y.2.2 = x.2.2)
      (saFit o expf obj f1 f2 f3 P self adj attr p (some init) cooling rng)
      (saFit o expf obj f1 f2 f3 P ⟨self.visited.map (List.map f), self.moveMade⟩ adj attr p
        (some fun i => f (init i)) cooling rng) := by
  unfold saFit
  split_ifs
  swap
  · rfl
  · refine Rel.same _ fun st => ?_
    refine Rel.bind (saOuter_relabel hf
      (K := fun cur => (AllContiguous adj cur ∧ (numRegions cur : Int) = p) ∧
        ∀ v, ∃ u, cur v = init u) ?_ ?_ P cooling f2 f1 _ 0 init ⟨hfeas, fun v => ⟨v, rfl⟩⟩
        self.visited _ rng) ?_
    · intro cur hc st rng
      have := azpFit_partial o expf obj hs attr f3 p (some cur) (fun _ => True)
        (fun _ _ _ => trivial) (fun st _ k idx attr a r labels rng => by
          cases st.call expf idx attr obj a r labels rng <;> trivial) st trivial rng
      refine this.mono id id ?_
      rintro out ⟨_, lab, ⟨_, _, rfl⟩, hfit⟩
      refine ⟨⟨hfit.contiguous, ?_⟩, ?_⟩
      · rw [Props.FitOk.numRegions_eq hfit]
        exact hc.1.2
      · intro v
        obtain ⟨u, hu⟩ := (hfit.image _).1 ⟨v, rfl⟩
        obtain ⟨w, hw⟩ := hc.2 u
        exact ⟨w, by rw [← hu, hw]⟩
    · intro cur hc st rng
      refine azpFit_relabel hf h1 o expf hobj hc.1 ?_ f3 st rng
      intro i j
      obtain ⟨u, hu⟩ := hc.2 i
      obtain ⟨w, hw⟩ := hc.2 j
      rw [hu, hw]
      exact horder u w
    · rintro ⟨x, v, s, r⟩ ⟨y, v', s', r'⟩ ⟨⟨L, e1, _, e2⟩, e3, e4⟩
      dsimp only at e1 e2 e3
      simp only [Prod.mk.injEq] at e4
      obtain ⟨rfl, rfl⟩ := e4
      exact ⟨⟨L, e1, e2⟩, e3, rfl, rfl⟩

/-- Two labellings of the same partition differ by an injective renaming that leaves -1 alone. -/
theorem exists_renaming {n : Nat} {a b : Labels n} (h : ∀ i j, a i = a j ↔ b i = b j)
    (ha : ∀ i, a i ≠ -1) (hb : ∀ i, b i ≠ -1) :
    ∃ f : Int → Int, Function.Injective f ∧ f (-1) = -1 ∧ ∀ i, b i = f (a i) := by
  classical
  let B : Int := 1 + ∑ i, |b i|
  have hB : ∀ i, b i < B := by
    intro i
    have h1 : |b i| ≤ ∑ i, |b i| :=
      Finset.single_le_sum (f := fun i => |b i|) (fun _ _ => abs_nonneg _) (Finset.mem_univ i)
    have h2 := le_abs_self (b i)
    omega
  have hB0 : 0 < B := by
    have : 0 ≤ ∑ i, |b i| := Finset.sum_nonneg fun _ _ => abs_nonneg _
    omega
  let f : Int → Int := fun x =>
    if hx : ∃ i, a i = x then b hx.choose
    else if x = -1 then -1 else B + (Equiv.intEquivNat x : Nat)
  have hfa : ∀ i, f (a i) = b i := by
    intro i
    have hx : ∃ j, a j = a i := ⟨i, rfl⟩
    change (if hx : ∃ j, a j = a i then b hx.choose else _) = _
    rw [dif_pos hx]
    exact (h _ _).1 hx.choose_spec
  have hfn : ∀ x, (¬ ∃ i, a i = x) → x ≠ -1 → f x = B + (Equiv.intEquivNat x : Nat) := by
    intro x h1 h2
    change (if hx : ∃ j, a j = x then b hx.choose else _) = _
    rw [dif_neg h1, if_neg h2]
  have hf1 : f (-1) = -1 := by
    change (if hx : ∃ j, a j = -1 then b hx.choose else _) = _
    rw [dif_neg (by rintro ⟨i, hi⟩; exact ha i hi), if_pos rfl]
  refine ⟨f, ?_, hf1, fun i => (hfa i).symm⟩
  intro x y hxy
  by_cases hx : ∃ i, a i = x
  · obtain ⟨i, rfl⟩ := hx
    rw [hfa] at hxy
    by_cases hy : ∃ j, a j = y
    · obtain ⟨j, rfl⟩ := hy
      rw [hfa] at hxy
      exact (h i j).2 hxy
    · by_cases hy1 : y = -1
      · subst hy1
        rw [hf1] at hxy
        exact absurd hxy (hb i)
      · rw [hfn y hy hy1] at hxy
        have := hB i
        omega
  · by_cases hx1 : x = -1
    · subst hx1
      rw [hf1] at hxy
      by_cases hy : ∃ j, a j = y
      · obtain ⟨j, rfl⟩ := hy
        rw [hfa] at hxy
        exact absurd hxy.symm (hb j)
      · by_cases hy1 : y = -1
        · exact hy1.symm
        · rw [hfn y hy hy1] at hxy
          omega
    · rw [hfn x hx hx1] at hxy
      by_cases hy : ∃ j, a j = y
      · obtain ⟨j, rfl⟩ := hy
        rw [hfa] at hxy
        have := hB j
        omega
      · by_cases hy1 : y = -1
        · subst hy1
          rw [hf1] at hxy
          omega
        · rw [hfn y hy hy1] at hxy
          exact Equiv.intEquivNat.injective (by omega)

end Region
