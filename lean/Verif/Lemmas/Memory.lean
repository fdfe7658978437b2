import Verif.Model.Memory
import Verif.Lemmas.AzpSa
import Verif.Lemmas.MaxPReact
import Verif.Lemmas.Objects
/-
The searches on arrays in memory do what the searches on values do, and the only array existing before that
a component routine changes is the copy it is given.
-/
namespace Region

/-- From `M` to `M'` no array was changed, except possibly the one at `p`. -/
def OnlyAt (p : Addr) (M M' : Mem) : Prop :=
  M.length ≤ M'.length ∧ ∀ b < M.length, b ≠ p → M'[b]? = M[b]?

theorem OnlyAt.refl (p : Addr) (M : Mem) : OnlyAt p M M := ⟨le_rfl, fun _ _ _ => rfl⟩

theorem OnlyAt.trans {p : Addr} {M M' M'' : Mem} (h : OnlyAt p M M') (h' : OnlyAt p M' M'') :
    OnlyAt p M M'' :=
  ⟨h.1.trans h'.1, fun b hb hp => (h'.2 b (lt_of_lt_of_le hb h.1) hp).trans (h.2 b hb hp)⟩

theorem OnlyAt.set (p : Addr) (M : Mem) (l : List Int) : OnlyAt p M (M.set p l) := by
  refine ⟨by simp, fun b _ hp => ?_⟩
  rw [List.getElem?_set_ne (Ne.symm hp)]

theorem OnlyAt.append (p : Addr) (M e : Mem) : OnlyAt p M (M ++ e) := by
  refine ⟨by simp, fun b hb _ => ?_⟩
  rw [List.getElem?_append_left hb]

/-- Outcome and memory of `x` are those of `y`: `R` forgets the labels of a result of `y`, and `lab` are
the labels, which are found at `p`. -/
def Sim {α β : Type} {k : Nat} (p : Addr) (R : β → α) (lab : β → Labels k) (x : Py Mem α) (y : Res β)
    (M : Mem) : Prop :=
  OnlyAt p M (x M).2 ∧
  match y with
  | .ok b => (x M).1 = .ok (R b) ∧ (x M).2[p]? = some (arrayList (lab b))
  | .raise e => (x M).1 = .raise e
  | .timeout => (x M).1 = .timeout

namespace Sim
variable {α β γ δ : Type} {k k' : Nat} {p : Addr} {R : β → α} {lab : β → Labels k} {x : Py Mem α}
  {y : Res β} {M : Mem}

theorem bind_frame {R' : δ → γ} {lab' : δ → Labels k'} {f : α → Py Mem γ} {g : β → Res δ}
    (h : Sim p R lab x y M)
    (hf : ∀ b M1, y = .ok b → OnlyAt p M M1 → M1[p]? = some (arrayList (lab b)) →
      Sim p R' lab' (f (R b)) (g b) M1) :
    Sim p R' lab' (x >>= f) (y >>= g) M := by
  obtain ⟨hfr, hy⟩ := h
  have hx : (x >>= f) M = Py.bind x f M := rfl
  unfold Sim
  rw [hx]
  unfold Py.bind
  rcases hxm : x M with ⟨r, M1⟩
  rw [hxm] at hfr hy
  cases y with
  | ok b =>
    obtain ⟨h1, h2⟩ := hy
    dsimp only at h1 h2 hfr
    subst h1
    obtain ⟨h3, h4⟩ := hf b M1 rfl hfr h2
    exact ⟨hfr.trans h3, h4⟩
  | raise e =>
    dsimp only at hy hfr
    subst hy
    exact ⟨hfr, rfl⟩
  | timeout =>
    dsimp only at hy hfr
    subst hy
    exact ⟨hfr, rfl⟩

theorem bind {R' : δ → γ} {lab' : δ → Labels k'} {f : α → Py Mem γ} {g : β → Res δ}
    (h : Sim p R lab x y M)
    (hf : ∀ b M1, y = .ok b → M1[p]? = some (arrayList (lab b)) → Sim p R' lab' (f (R b)) (g b) M1) :
    Sim p R' lab' (x >>= f) (y >>= g) M :=
  bind_frame h fun b M1 hb _ h1 => hf b M1 hb h1

theorem ok_bind {R' : δ → γ} {lab' : δ → Labels k'} {f : α → Py Mem γ} {z : Res δ} {b : β}
    (h : Sim p R lab x (.ok b) M)
    (hf : ∀ M1, M1[p]? = some (arrayList (lab b)) → Sim p R' lab' (f (R b)) z M1) :
    Sim p R' lab' (x >>= f) z M :=
  bind (g := fun _ => z) h fun b' M1 hb h1 => by
    obtain rfl : b = b' := by simpa using hb
    exact hf M1 h1

theorem raise_bind {R' : δ → γ} {lab' : δ → Labels k'} {f : α → Py Mem γ} {e : Exc}
    (h : Sim p R lab x (.raise e) M) : Sim p R' lab' (x >>= f) (.raise e) M :=
  bind (g := fun _ => .raise e) h fun b' M1 hb _ => by cases hb

theorem ret {a : α} {b : β} (hR : R b = a) (hl : M[p]? = some (arrayList (lab b))) :
    Sim p R lab (pure a) (.ok b) M := by
  subst hR
  exact ⟨OnlyAt.refl p M, rfl, hl⟩

theorem raise {e : Exc} : Sim p R lab (Py.lift (.raise e)) (.raise e) M := ⟨OnlyAt.refl p M, rfl⟩

theorem timeout : Sim p R lab (Py.lift .timeout) .timeout M := ⟨OnlyAt.refl p M, rfl⟩

theorem lift_bind {z : Res δ} {f : δ → Py Mem α} {g : δ → Res β}
    (h : ∀ d, z = .ok d → Sim p R lab (f d) (g d) M) : Sim p R lab (Py.lift z >>= f) (z >>= g) M := by
  cases z with
  | ok d => exact h d rfl
  | raise e => exact ⟨OnlyAt.refl p M, rfl⟩
  | timeout => exact ⟨OnlyAt.refl p M, rfl⟩

end Sim

theorem view_eq {k : Nat} {p : Addr} {M : Mem} {L : Labels k} (h : M[p]? = some (arrayList L)) :
    Mem.view k p M = (.ok L, M) := by
  unfold Mem.view
  rw [h]
  dsimp only
  rw [dif_pos (by simp [arrayList])]
  congr 2
  funext i
  simp [arrayList]

theorem read_eq {p : Addr} {M : Mem} {l : List Int} (h : M[p]? = some l) :
    Mem.read p M = (.ok l, M) := by
  unfold Mem.read
  rw [h]

theorem arrayList_set {k : Nat} (L : Labels k) (i : Fin k) (x : Int) :
    (arrayList L).set i x = arrayList (makeMove i x L) := by
  apply List.ext_getElem?
  intro j
  rw [List.getElem?_set]
  by_cases hj : j < k
  · by_cases hij : i.val = j
    · subst hij
      simp [arrayList, makeMove]
    · have : (⟨j, hj⟩ : Fin k) ≠ i := fun h => hij (by rw [← h])
      simp [arrayList, makeMove, hj, hij, this]
  · have : i.val ≠ j := fun h => hj (h ▸ i.isLt)
    simp [arrayList, hj, this]

theorem setItem_eq {k : Nat} {p : Addr} {M : Mem} {L : Labels k} (h : M[p]? = some (arrayList L))
    (i : Fin k) (x : Int) :
    Mem.setItem p i x M = (.ok (), M.set p (arrayList (makeMove i x L))) := by
  unfold Mem.setItem
  rw [h]
  dsimp only
  rw [if_pos (by simp [arrayList]), arrayList_set]

theorem getElem?_set_here {p : Addr} {M : Mem} {l : List Int} (h : M[p]? = some l) (l' : List Int) :
    (M.set p l')[p]? = some l' := by
  have : p < M.length := (List.getElem?_eq_some_iff.1 h).1
  simp [this]

theorem Py.bind_eq {σ α β : Type} {x : Py σ α} {s t : σ} {a : α} (h : x s = (.ok a, t))
    (f : α → Py σ β) : (x >>= f) s = f a t := by
  show Py.bind x f s = _
  unfold Py.bind
  rw [h]

theorem Py.bind_eq_raise {σ α β : Type} {x : Py σ α} {s t : σ} {e : Exc} (h : x s = (.raise e, t))
    (f : α → Py σ β) : (x >>= f) s = (.raise e, t) := by
  show Py.bind x f s = _
  unfold Py.bind
  rw [h]

theorem Py.bind_eq_timeout {σ α β : Type} {x : Py σ α} {s t : σ} (h : x s = (.timeout, t))
    (f : α → Py σ β) : (x >>= f) s = (.timeout, t) := by
  show Py.bind x f s = _
  unfold Py.bind
  rw [h]

namespace Sim
variable {α β γ δ : Type} {k k' : Nat} {p : Addr} {R : β → α} {lab : β → Labels k'} {y : Res β} {M : Mem}
  {L : Labels k}

theorem view (h : M[p]? = some (arrayList L)) {f : Labels k → Py Mem α} (hf : Sim p R lab (f L) y M) :
    Sim p R lab (Mem.view k p >>= f) y M := by
  unfold Sim
  rw [Py.bind_eq (view_eq h)]
  exact hf

theorem read {l : List Int} (h : M[p]? = some l) {f : List Int → Py Mem α} (hf : Sim p R lab (f l) y M) :
    Sim p R lab (Mem.read p >>= f) y M := by
  unfold Sim
  rw [Py.bind_eq (read_eq h)]
  exact hf

theorem setItem (h : M[p]? = some (arrayList L)) {i : Fin k} {z : Int} {f : Unit → Py Mem α}
    (hf : ∀ M1, M1[p]? = some (arrayList (makeMove i z L)) → Sim p R lab (f ()) y M1) :
    Sim p R lab (Mem.setItem p i z >>= f) y M := by
  unfold Sim
  rw [Py.bind_eq (setItem_eq h i z)]
  obtain ⟨h1, h2⟩ := hf _ (getElem?_set_here h (arrayList (makeMove i z L)))
  exact ⟨(OnlyAt.set p M _).trans h1, h2⟩

end Sim

/-! ### Objective functions -/

/-- The objective function in memory computes the same values and leaves the array as it was when it
returns. -/
def ObjSim {ρ : Type} (obj' : ObjectiveMem ρ) (obj : Objective ρ) : Prop :=
  ∀ {k : Nat} (p : Addr) (L : Labels k) (attr : Fin k → ρ) (M : Mem), M[p]? = some (arrayList L) →
    Sim p id (fun _ => L) (obj'.call p attr) (.ok (obj.call L attr)) M ∧
    ∀ a r, Sim p id (fun _ => L) (obj'.update a r p attr) (orEmptyArray (obj.update a r L attr)) M

theorem pairwise_objSim {ρ : Type} (metric : ρ → ρ → ℚ) :
    ObjSim (pairwiseMem metric) (pairwise metric) := by
  intro k p L attr M h
  refine ⟨Sim.view h (Sim.ret rfl h), fun a r => Sim.view h ?_⟩
  show Sim p id (fun _ => L) (Py.lift (orEmptyArray (pairwiseUpdate metric a r L attr)))
    (orEmptyArray (pairwiseUpdate metric a r L attr)) M
  cases pairwiseUpdate metric a r L attr with
  | none => exact Sim.raise
  | some d => exact Sim.ret (a := d) rfl h

theorem makeMove_back {k : Nat} (a : Fin k) (x : Int) (L : Labels k) :
    makeMove a (L a) (makeMove a x L) = L := by
  funext v
  unfold makeMove
  split_ifs with h
  · rw [h]
  · rfl

theorem centered_objSim {ρ : Type} (metric : ρ → ρ → ℚ) (center : List ρ → ρ) (reduction : List ℚ → ℚ) :
    ObjSim (centeredMem metric center reduction) (centered metric center reduction) := by
  intro k p L attr M h
  refine ⟨Sim.view h (Sim.ret rfl h), fun a r => Sim.view h ?_⟩
  show Sim p id (fun _ => L) _ (orEmptyArray (centerUpdate metric center reduction a r L attr).1) M
  unfold centerUpdate
  dsimp only
  cases h1 : intraregional metric center reduction L (L a) attr with
  | none => exact Sim.raise_bind (Sim.raise (R := id) (lab := fun _ : ℚ => L))
  | some d1 =>
    refine Sim.ok_bind (b := d1) (Sim.ret (R := id) (lab := fun _ => L) rfl h) fun M h => ?_
    cases h2 : intraregional metric center reduction L r attr with
    | none => exact Sim.raise_bind (Sim.raise (R := id) (lab := fun _ : ℚ => L))
    | some d2 =>
      refine Sim.ok_bind (b := d2) (Sim.ret (R := id) (lab := fun _ => L) rfl h) fun M h => ?_
      refine Sim.setItem h fun M h => Sim.view h ?_
      dsimp only
      cases h3 : intraregional metric center reduction (makeMove a r L) (L a) attr with
      | none => exact Sim.raise_bind (Sim.raise (R := id) (lab := fun _ : ℚ => L))
      | some d3 =>
        refine Sim.ok_bind (b := d3) (Sim.ret (R := id) (lab := fun _ => _) rfl h) fun M h => ?_
        cases h4 : intraregional metric center reduction (makeMove a r L) r attr with
        | none => exact Sim.raise_bind (Sim.raise (R := id) (lab := fun _ : ℚ => L))
        | some d4 =>
          refine Sim.ok_bind (b := d4) (Sim.ret (R := id) (lab := fun _ => _) rfl h) fun M h => ?_
          refine Sim.setItem h fun M h => Sim.ret rfl ?_
          rw [h, makeMove_back]

/-! ### Strategies -/

/-- The strategy in memory answers the same and leaves the array as it was when it returns. -/
def OpsSim {σ : Type} {k : Nat} (p : Addr) (ops' : MemOps σ k) (ops : StratOps σ k) : Prop :=
  (∀ st, ops'.objVal st = ops.objVal st) ∧
  ∀ (st : σ) (a : Fin k) (x : Int) (L : Labels k) (r : Rng) (M : Mem), M[p]? = some (arrayList L) →
    Sim p id (fun _ => L) (ops'.call st a x p r) (ops.call st a x L r) M

theorem stratCall_sim {n q : Nat} {ρ : Type} {obj' : ObjectiveMem ρ} {obj : Objective ρ}
    (hobj : ObjSim obj' obj) (expf : ℚ → ℚ) {k : Nat} (idx : Fin k → Fin n) (attr : Fin k → ρ)
    (p : Addr) (a : Fin k) (x : Int) (L : Labels k) (r : Rng) :
    ∀ (st : Strat n q) (M : Mem), M[p]? = some (arrayList L) →
    Sim p id (fun _ => L) (Strat.callMem expf idx attr obj' st a x p r)
      (Strat.call expf idx attr obj st a x L r) M
  | .azp v, M, h => by
    have hu := (hobj p L attr M h).2 a x
    unfold Strat.callMem Strat.call
    cases hd : obj.update a x L attr with
    | none =>
      rw [hd] at hu
      exact Sim.raise_bind hu
    | some d =>
      rw [hd] at hu
      refine Sim.ok_bind hu fun M1 h1 => ?_
      dsimp only [id]
      split_ifs <;> exact Sim.ret rfl h1
  | .sa t term m v al mm, M, h => by
    have hu := (hobj p L attr M h).2 a x
    unfold Strat.callMem Strat.call
    cases hd : obj.update a x L attr with
    | none =>
      rw [hd] at hu
      exact Sim.raise_bind hu
    | some d =>
      rw [hd] at hu
      refine Sim.ok_bind hu fun M1 h1 => ?_
      dsimp only [id]
      split_ifs
      · exact Sim.ret rfl h1
      · rcases Strat.randomLt (Strat.acceptProb expf d t) r with ⟨b, r'⟩
        cases b <;> exact Sim.ret rfl h1
  | .maxp spat thr v inner, M, h => by
    have ih := stratCall_sim hobj expf idx attr p a x L r inner M h
    unfold Strat.callMem Strat.call
    refine Sim.view h ?_
    dsimp only
    split_ifs
    · exact Sim.ret rfl h
    · have hb := Sim.bind (R' := id) (lab' := fun _ => L)
        (f := fun z : Bool × Strat n q × Rng => (pure (z.1, Strat.maxp spat thr v z.2.1, z.2.2) :
          Py Mem (Bool × Strat n q × Rng)))
        (g := fun z => .ok (z.1, Strat.maxp spat thr v z.2.1, z.2.2)) ih
        fun b M1 _ h1 => Sim.ret rfl h1
      revert hb
      cases Strat.call expf idx attr obj inner a x L r <;> exact id

theorem strat_opsSim {n q : Nat} {ρ : Type} {obj' : ObjectiveMem ρ} {obj : Objective ρ}
    (hobj : ObjSim obj' obj) (expf : ℚ → ℚ) {k : Nat} (idx : Fin k → Fin n) (attr : Fin k → ρ)
    (p : Addr) : OpsSim p (Strat.opsMem (q := q) expf idx attr obj') (Strat.ops expf idx attr obj) :=
  ⟨fun _ => rfl, fun st a x L r M h => stratCall_sim hobj expf idx attr p a x L r st M h⟩

/-! ### `AZP` -/

/-- The variables apart from the labels. -/
def AzpState.rest {σ : Type} {k : Nat} (s : AzpState σ k) : AzpLocals σ k := ⟨s.nbrs, s.strat, s.rng⟩

section
variable {σ : Type} {k : Nat} {ops' : MemOps σ k} {ops : StratOps σ k} (adj : Adj k) {p : Addr}

theorem applyMove_sim (recipient : Int) (cand : Fin k) (s : AzpState σ k) (M : Mem)
    (h : M[p]? = some (arrayList s.labels)) :
    Sim p AzpState.rest AzpState.labels (applyMoveMem adj p recipient cand s.rest)
      (applyMove adj recipient cand s) M := by
  unfold applyMoveMem applyMove
  refine Sim.view h (Sim.setItem h fun M1 h1 => ?_)
  refine Sim.lift_bind fun n1 _ => Sim.lift_bind fun n2 _ => Sim.view h1 ?_
  refine Sim.lift_bind fun n3 _ => Sim.lift_bind fun n4 _ => ?_
  exact Sim.ret rfl h1

theorem tryCandidates_sim (hops : OpsSim p ops' ops) (recipient : Int) :
    ∀ (fuel : Nat) (cs : List (Fin k)) (s : AzpState σ k) (M : Mem),
    M[p]? = some (arrayList s.labels) →
    Sim p (fun z => (z.1, z.2.rest)) (fun z => z.2.labels)
      (tryCandidatesMem ops' adj p recipient fuel cs s.rest)
      (tryCandidates ops adj recipient fuel cs s) M
  | fuel, [], s, M, h => by
    unfold tryCandidatesMem tryCandidates
    exact Sim.ret rfl h
  | 0, c :: cs, s, M, h => by
    unfold tryCandidatesMem tryCandidates
    exact Sim.timeout
  | fuel + 1, c :: cs, s, M, h => by
    unfold tryCandidatesMem tryCandidates
    refine Sim.lift_bind (z := popRandomlyFrom (c :: cs) s.rng) ?_
    rintro ⟨cand, rest, rng⟩ -
    refine Sim.bind (hops.2 s.strat cand recipient s.labels rng M h) ?_
    rintro ⟨allowed, strat, rng⟩ M1 - h1
    dsimp only [id]
    split_ifs
    · refine Sim.bind (applyMove_sim adj recipient cand { s with strat := strat, rng := rng } M1 h1) ?_
      rintro s' M2 - h2
      exact Sim.ret rfl h2
    · exact tryCandidates_sim hops recipient fuel rest { s with strat := strat, rng := rng } M1 h1

theorem growRegion_sim (hops : OpsSim p ops' ops) (recipient : Int) :
    ∀ (fuel : Nat) (s : AzpState σ k) (M : Mem), M[p]? = some (arrayList s.labels) →
    Sim p AzpState.rest AzpState.labels (growRegionMem ops' adj p recipient fuel s.rest)
      (growRegion ops adj recipient fuel s) M
  | 0, s, M, h => by
    unfold growRegionMem growRegion
    exact Sim.timeout
  | fuel + 1, s, M, h => by
    unfold growRegionMem growRegion
    refine Sim.lift_bind (z := getNbrs s.nbrs recipient) fun border _ => Sim.view h ?_
    refine Sim.bind (tryCandidates_sim adj hops recipient _ _ s M h) ?_
    rintro ⟨moved, s'⟩ M1 - h1
    dsimp only
    split_ifs
    · exact growRegion_sim hops recipient fuel s' M1 h1
    · exact Sim.ret rfl h1

theorem passRegions_sim (hops : OpsSim p ops' ops) (fuel : Nat) :
    ∀ (m : Nat) (xs : List Int) (s : AzpState σ k) (M : Mem), M[p]? = some (arrayList s.labels) →
    Sim p AzpState.rest AzpState.labels (passRegionsMem ops' adj p fuel m xs s.rest)
      (passRegions ops adj fuel m xs s) M
  | m, [], s, M, h => by
    unfold passRegionsMem passRegions
    exact Sim.ret rfl h
  | 0, x :: xs, s, M, h => by
    unfold passRegionsMem passRegions
    exact Sim.timeout
  | m + 1, x :: xs, s, M, h => by
    unfold passRegionsMem passRegions
    refine Sim.lift_bind (z := popRandomlyFrom (x :: xs) s.rng) ?_
    rintro ⟨recipient, rest, rng⟩ -
    refine Sim.bind (growRegion_sim adj hops recipient fuel { s with rng := rng } M h) ?_
    rintro s' M1 - h1
    exact passRegions_sim hops fuel m rest s' M1 h1

theorem azpOuter_sim (hops : OpsSim p ops' ops) (regions : List Int) (fuel : Nat) :
    ∀ (m : Nat) (start : Option ℚ) (stop : ℚ) (s : AzpState σ k) (M : Mem),
    M[p]? = some (arrayList s.labels) →
    Sim p AzpState.rest AzpState.labels (azpOuterMem ops' adj p regions fuel m start stop s.rest)
      (azpOuter ops adj regions fuel m start stop s) M
  | 0, start, stop, s, M, h => by
    unfold azpOuterMem azpOuter
    split_ifs
    · exact Sim.timeout
    · exact Sim.ret rfl h
  | m + 1, start, stop, s, M, h => by
    unfold azpOuterMem azpOuter
    split_ifs
    · refine Sim.bind (passRegions_sim adj hops fuel _ _ s M h) ?_
      rintro s' M1 - h1
      rw [hops.1]
      exact azpOuter_sim hops regions fuel m _ _ s' M1 h1
    · exact Sim.ret rfl h

theorem azpComponent_sim (hops : OpsSim p ops' ops) (fuel : Nat) (L : Labels k) (strat : σ) (rng : Rng)
    (M : Mem) (h : M[p]? = some (arrayList L)) :
    Sim p (fun z => (p, z.2)) (fun z => z.1) (azpComponentMem ops' adj p fuel strat rng)
      (azpComponent ops adj fuel L strat rng) M := by
  unfold azpComponentMem azpComponent
  refine Sim.view h ?_
  dsimp only
  split_ifs
  · exact Sim.ret rfl h
  · exact Sim.raise
  · rw [hops.1]
    refine Sim.bind (azpOuter_sim adj hops _ fuel fuel none _
      { labels := L, nbrs := initNbrs adj L _, strat := strat, rng := rng } M h) ?_
    rintro s' M1 - h1
    exact Sim.ret rfl h1

end

/-! ### The tabu searches -/

/-- The variables apart from the labels. -/
def TabuState.rest {σ : Type} {k : Nat} (s : TabuState σ k) : TabuLocals σ k :=
  ⟨s.tabu, s.visited, s.stop, s.strat, s.rng⟩

section
variable {σ : Type} {k : Nat} {ρ : Type} {ops' : MemOps σ k} {ops : StratOps σ k}
  {obj' : ObjectiveMem ρ} {obj : Objective ρ} (attr : Fin k → ρ) (adj : Adj k) {p : Addr}

theorem tabuMakeMove_sim (area : Fin k) (x : Int) (L : Labels k) (tabu : Tabu k) (M : Mem)
    (h : M[p]? = some (arrayList L)) :
    Sim p (fun z => (z.1, z.2.2)) (fun z => z.2.1) (tabuMakeMoveMem adj p area x tabu)
      (tabuMakeMove adj area x L tabu) M := by
  unfold tabuMakeMoveMem tabuMakeMove
  refine Sim.view h (Sim.setItem h fun M1 h1 => Sim.view h1 ?_)
  refine Sim.lift_bind fun ok _ => ?_
  split_ifs
  · exact Sim.setItem h1 fun M2 h2 => Sim.ret rfl h2
  · exact Sim.ret rfl h1

theorem tryMove_sim (hops : OpsSim p ops' ops) (m : Move k) (s : TabuState σ k) (M : Mem)
    (h : M[p]? = some (arrayList s.labels)) :
    Sim p (fun z => (z.1, z.2.rest)) (fun z => z.2.labels) (tryMoveMem ops' adj p m s.rest)
      (tryMove ops adj m s) M := by
  unfold tryMoveMem tryMove
  refine Sim.bind (hops.2 s.strat m.area m.new s.labels s.rng M h) ?_
  rintro ⟨allowed, strat, rng⟩ M1 - h1
  dsimp only [id]
  split_ifs
  · refine Sim.bind (tabuMakeMove_sim adj m.area m.new s.labels s.tabu M1 h1) ?_
    rintro ⟨b, L, tabu⟩ M2 - h2
    exact Sim.ret rfl h2
  · exact Sim.ret rfl h1

theorem updateOf_eq (L : Labels k) (m : Move k) :
    updateOf obj attr L m = orEmptyArray (obj.update m.area m.new L attr) := by
  unfold updateOf orEmptyArray
  cases obj.update m.area m.new L attr <;> rfl

theorem bestMove_sim (hobj : ObjSim obj' obj) (L : Labels k) :
    ∀ (ms : List (Move k)) (i : Nat) (best : Option (Nat × Move k × ℚ)) (M : Mem),
    M[p]? = some (arrayList L) →
    Sim p id (fun _ => L) (bestMoveMem obj' attr p ms i best) (bestMove obj attr L ms i best) M
  | [], i, best, M, h => by
    unfold bestMoveMem bestMove
    exact Sim.ret rfl h
  | m :: ms, i, best, M, h => by
    unfold bestMoveMem bestMove
    rw [updateOf_eq]
    refine Sim.bind ((hobj p L attr M h).2 m.area m.new) ?_
    rintro d M1 - h1
    exact bestMove_sim hobj L ms _ _ M1 h1

theorem improvingTabus_sim (hobj : ObjSim obj' obj) (L : Labels k) :
    ∀ (ms : List (Move k)) (M : Mem), M[p]? = some (arrayList L) →
    Sim p id (fun _ => L) (improvingTabusMem obj' attr p ms) (improvingTabus obj attr L ms) M
  | [], M, h => by
    unfold improvingTabusMem improvingTabus
    exact Sim.ret rfl h
  | m :: ms, M, h => by
    unfold improvingTabusMem improvingTabus
    refine Sim.view h ?_
    split_ifs
    · rw [updateOf_eq]
      refine Sim.bind ((hobj p L attr M h).2 m.area m.new) ?_
      rintro d M1 - h1
      refine Sim.bind (improvingTabus_sim hobj L ms M1 h1) ?_
      rintro rest M2 - h2
      exact Sim.ret rfl h2
    · exact improvingTabus_sim hobj L ms M h

theorem aspiration_sim (hops : OpsSim p ops' ops) (hobj : ObjSim obj' obj) (s : TabuState σ k) (M : Mem)
    (h : M[p]? = some (arrayList s.labels)) :
    Sim p TabuState.rest TabuState.labels (aspirationMem ops' obj' attr adj p s.rest)
      (aspiration ops obj attr adj s) M := by
  unfold aspirationMem aspiration
  refine Sim.bind (improvingTabus_sim attr hobj s.labels s.tabu.items M h) ?_
  rintro moves M1 - h1
  dsimp only [id]
  split_ifs
  · exact Sim.ret rfl h1
  · refine Sim.lift_bind (z := randomElementFrom moves s.rng) ?_
    rintro ⟨m, rng⟩ -
    refine Sim.bind (tryMove_sim adj hops m { s with rng := rng } M1 h1) ?_
    rintro ⟨b, s'⟩ M2 - h2
    exact Sim.ret rfl h2

theorem basicElse_sim (hops : OpsSim p ops' ops) (hobj : ObjSim obj' obj)
    (best : Option (Nat × Move k × ℚ)) (s : TabuState σ k) (M : Mem)
    (h : M[p]? = some (arrayList s.labels)) :
    Sim p (fun z => (z.1, z.2.rest)) (fun z => z.2.labels) (basicElseMem ops' obj' attr adj p best s.rest)
      (basicElse ops obj attr adj best s) M := by
  unfold basicElseMem basicElse
  refine Sim.bind (aspiration_sim attr adj hops hobj s M h) ?_
  rintro s' M1 - h1
  show Sim p _ _ (if s'.stop = true then _ else _) (if s'.stop = true then _ else _) M1
  split_ifs
  · exact Sim.ret rfl h1
  · rcases best with _ | ⟨i, m, d⟩
    · exact Sim.ret rfl h1
    · refine Sim.bind (tryMove_sim adj hops m s' M1 h1) ?_
      rintro ⟨b, s2⟩ M2 - h2
      exact Sim.ret rfl h2

theorem basicRound_sim (hops : OpsSim p ops' ops) (hobj : ObjSim obj' obj) (s : TabuState σ k) (M : Mem)
    (h : M[p]? = some (arrayList s.labels)) :
    Sim p (fun z => (z.1, z.2.rest)) (fun z => z.2.labels) (basicRoundMem ops' obj' attr adj p s.rest)
      (basicRound ops obj attr adj s) M := by
  unfold basicRoundMem basicRound
  refine Sim.view h ?_
  refine Sim.bind (bestMove_sim attr hobj s.labels (possibleMoves adj s.labels s.tabu) 0 none M h) ?_
  rintro best M1 - h1
  rcases best with _ | ⟨i, m, d⟩
  · exact basicElse_sim attr adj hops hobj none s M1 h1
  · dsimp only [id]
    split_ifs
    · refine Sim.bind (tryMove_sim adj hops m s M1 h1) ?_
      rintro ⟨allowed, s'⟩ M2 - h2
      dsimp only
      split_ifs
      · exact Sim.ret rfl h2
      · exact basicElse_sim attr adj hops hobj _ s' M2 h2
    · exact basicElse_sim attr adj hops hobj _ s M1 h1

theorem basicLoop_sim (hops : OpsSim p ops' ops) (hobj : ObjSim obj' obj) (reps : Int) :
    ∀ (fuel : Nat) (s : TabuState σ k) (M : Mem), M[p]? = some (arrayList s.labels) →
    Sim p TabuState.rest TabuState.labels (basicLoopMem ops' obj' attr adj p reps fuel s.rest)
      (basicLoop ops obj attr adj reps fuel s) M
  | 0, s, M, h => by
    unfold basicLoopMem basicLoop
    exact Sim.timeout
  | fuel + 1, s, M, h => by
    unfold basicLoopMem basicLoop
    have hn : Sim p TabuState.rest TabuState.labels (noteVisitMem p reps s.rest) (.ok (noteVisit reps s)) M :=
      Sim.read h (Sim.ret rfl h)
    refine Sim.ok_bind hn fun M1 h1 => ?_
    refine Sim.bind (basicRound_sim attr adj hops hobj (noteVisit reps s) M1 h1) ?_
    rintro ⟨done, s'⟩ M2 - h2
    dsimp only
    split_ifs
    · exact Sim.ret rfl h2
    · exact basicLoop_sim hops hobj reps fuel s' M2 h2

theorem basicComponent_sim (hops : OpsSim p ops' ops) (hobj : ObjSim obj' obj) (len : Option Nat)
    (reps : Int) (fuel : Nat) (L : Labels k) (strat : σ) (rng : Rng) (M : Mem)
    (h : M[p]? = some (arrayList L)) :
    Sim p (fun z => (p, z.2)) (fun z => z.1)
      (basicComponentMem ops' obj' attr adj p len reps fuel strat rng)
      (basicComponent ops obj attr adj len reps fuel L strat rng) M := by
  unfold basicComponentMem basicComponent
  refine Sim.read h ?_
  split_ifs
  · exact Sim.ret rfl h
  · refine Sim.bind (basicLoop_sim attr adj hops hobj reps fuel
      { labels := L, tabu := ⟨[], len⟩, visited := [], stop := false, strat := strat, rng := rng } M h) ?_
    rintro s' M1 - h1
    exact Sim.ret rfl h1

theorem randomMoves_sim (hops : OpsSim p ops' ops) :
    ∀ (c : Nat) (moves : List (Move k)) (s : TabuState σ k) (M : Mem),
    M[p]? = some (arrayList s.labels) →
    Sim p TabuState.rest TabuState.labels (randomMovesMem ops' adj p c moves s.rest)
      (randomMoves ops adj c moves s) M
  | 0, moves, s, M, h => by
    unfold randomMovesMem randomMoves
    exact Sim.ret rfl h
  | c + 1, moves, s, M, h => by
    unfold randomMovesMem randomMoves
    refine Sim.lift_bind (z := popRandomlyFrom moves s.rng) ?_
    rintro ⟨m, moves, rng⟩ -
    refine Sim.bind (tryMove_sim adj hops m { s with rng := rng } M h) ?_
    rintro ⟨b, s'⟩ M1 - h1
    exact randomMoves_sim hops c moves s' M1 h1

theorem reactRound_sim (hops : OpsSim p ops' ops) (hobj : ObjSim obj' obj) (k1 k2 : Int) (avg : ℚ)
    (s : TabuState σ k) (M : Mem) (h : M[p]? = some (arrayList s.labels)) :
    Sim p (fun z => (z.1, z.2.rest)) (fun z => z.2.labels)
      (reactRoundMem ops' obj' attr adj p k1 k2 avg s.rest)
      (reactRound ops obj attr adj k1 k2 avg s) M := by
  unfold reactRoundMem reactRound
  refine Sim.view h ?_
  refine Sim.bind (bestMove_sim attr hobj s.labels (possibleMoves adj s.labels s.tabu) 0 none M h) ?_
  rintro best M1 - h1
  rcases best with _ | ⟨i, m, d⟩
  · exact Sim.raise
  · refine Sim.bind (tryMove_sim adj hops m s M1 h1) ?_
    rintro ⟨b, s'⟩ M2 - h2
    refine Sim.read h2 ?_
    show Sim p _ _ (if s'.visited.contains (arrayList s'.labels) = true then
        (if k1 < (s'.visited.count (arrayList s'.labels) : Int) then (if k2 ≤ _ then _ else _) else _)
        else _)
      (if s'.visited.contains (arrayList s'.labels) = true then
        (if k1 < (s'.visited.count (arrayList s'.labels) : Int) then (if k2 ≤ _ then _ else _) else _)
        else _) M2
    by_cases c1 : s'.visited.contains (arrayList s'.labels) = true
    · rw [if_pos c1, if_pos c1]
      by_cases c2 : k1 < (s'.visited.count (arrayList s'.labels) : Int)
      · rw [if_pos c2, if_pos c2]
        by_cases c3 : k2 ≤ (if 0 < k2 then cycleCount s'.visited (lastCycle s'.visited (arrayList s'.labels))
            k2 (List.range (s'.visited.length -
              (lastCycle s'.visited (arrayList s'.labels)).length)) 0 else 0)
        · rw [if_pos c3]
          refine (if_pos (c := k2 ≤ _) c3).symm ▸ ?_
          refine Sim.bind (randomMoves_sim adj hops _ _ { s' with visited := [] } M2 h2) ?_
          rintro s2 M3 - h3
          exact Sim.ret rfl h3
        · rw [if_neg c3]
          refine (if_neg (c := k2 ≤ _) c3).symm ▸ ?_
          exact Sim.raise
      · rw [if_neg c2, if_neg c2]
        exact Sim.ret rfl h2
    · rw [if_neg c1, if_neg c1]
      exact Sim.ret rfl h2

theorem reactLoop_sim (hops : OpsSim p ops' ops) (hobj : ObjSim obj' obj) (k1 k2 : Int) (avg : ℚ) :
    ∀ (it : Nat) (start : Option ℚ) (last : Option LastStep) (s : TabuState σ k) (M : Mem),
    M[p]? = some (arrayList s.labels) →
    Sim p (fun z => (z.1, z.2.rest)) (fun z => z.2.labels)
      (reactLoopMem ops' obj' attr adj p k1 k2 avg it start last s.rest)
      (reactLoop ops obj attr adj k1 k2 avg it start last s) M
  | 0, start, last, s, M, h => by
    unfold reactLoopMem reactLoop
    exact Sim.ret rfl h
  | it + 1, start, last, s, M, h => by
    unfold reactLoopMem reactLoop
    refine Sim.ok_bind
      (hobj p s.labels attr M h).1 fun M1 h1 => ?_
    dsimp only [id]
    split_ifs
    · refine Sim.bind (reactRound_sim attr adj hops hobj k1 k2 avg s M1 h1) ?_
      rintro ⟨l, s'⟩ M2 - h2
      exact reactLoop_sim hops hobj k1 k2 avg it _ _ s' M2 h2
    · exact Sim.ret rfl h1

end

/-! ### Whole calls of `fit` -/

/-- Every array of `M` is still there in `M'`, with the same elements. -/
def Preserved (M M' : Mem) : Prop := ∀ (b : Addr) (l : List Int), M[b]? = some l → M'[b]? = some l

theorem Preserved.refl (M : Mem) : Preserved M M := fun _ _ h => h

theorem Preserved.trans {M M' M'' : Mem} (h : Preserved M M') (h' : Preserved M' M'') :
    Preserved M M'' := fun b l hb => h' b l (h b l hb)

theorem Preserved.append (M e : Mem) : Preserved M (M ++ e) := by
  intro b l h
  rw [List.getElem?_append_left (List.getElem?_eq_some_iff.1 h).1, h]

theorem Preserved.length_le {M M' : Mem} (h : Preserved M M') : M.length ≤ M'.length := by
  by_contra hlt
  push Not at hlt
  have h1 := h M'.length _ (List.getElem?_eq_getElem hlt)
  exact absurd (List.getElem?_eq_some_iff.1 h1).1 (lt_irrefl _)

theorem Preserved.onlyAt {M M' : Mem} (h : Preserved M M') (p : Addr) : OnlyAt p M M' :=
  ⟨h.length_le, fun b hb _ => by rw [List.getElem?_eq_getElem hb]; exact h b _ (List.getElem?_eq_getElem hb)⟩

theorem OnlyAt.preserved {p : Addr} {M0 M M' : Mem} (h : OnlyAt p M M') (h0 : Preserved M0 M)
    (hp : M0.length ≤ p) : Preserved M0 M' := by
  intro b l hb
  have hlt := (List.getElem?_eq_some_iff.1 hb).1
  have h1 := h0 b l hb
  rw [h.2 b (List.getElem?_eq_some_iff.1 h1).1 (by omega), h1]

/-- Outcome and memory of a computation that gives back no labels. -/
def OutSim {β : Type} (p : Addr) (x : Py Mem β) (y : Res β) (M : Mem) : Prop :=
  OnlyAt p M (x M).2 ∧ (x M).1 = y

theorem Sim.bind_out {α β γ : Type} {k : Nat} {p : Addr} {R : β → α} {lab : β → Labels k} {x : Py Mem α}
    {y : Res β} {M : Mem} {f : α → Py Mem γ} {g : β → Res γ} (h : Sim p R lab x y M)
    (hf : ∀ b M1, M1[p]? = some (arrayList (lab b)) → OutSim p (f (R b)) (g b) M1) :
    OutSim p (x >>= f) (y >>= g) M := by
  obtain ⟨hfr, hy⟩ := h
  have hx : (x >>= f) M = Py.bind x f M := rfl
  unfold OutSim
  rw [hx]
  unfold Py.bind
  rcases hxm : x M with ⟨r, M1⟩
  rw [hxm] at hfr hy
  cases y with
  | ok b =>
    obtain ⟨h1, h2⟩ := hy
    dsimp only at h1 h2 hfr
    subst h1
    obtain ⟨h3, h4⟩ := hf b M1 h2
    exact ⟨hfr.trans h3, h4⟩
  | raise e =>
    dsimp only at hy hfr
    subst hy
    exact ⟨hfr, rfl⟩
  | timeout =>
    dsimp only at hy hfr
    subst hy
    exact ⟨hfr, rfl⟩

theorem Sim.ok_bind_out {α β γ : Type} {k : Nat} {p : Addr} {R : β → α} {lab : β → Labels k}
    {x : Py Mem α} {b : β} {M : Mem} {f : α → Py Mem γ} {z : Res γ} (h : Sim p R lab x (.ok b) M)
    (hf : ∀ M1, M1[p]? = some (arrayList (lab b)) → OutSim p (f (R b)) z M1) :
    OutSim p (x >>= f) z M := by
  obtain ⟨hfr, h1, h2⟩ := h
  obtain ⟨h3, h4⟩ := hf _ h2
  unfold OutSim
  rw [Py.bind_eq (t := (x M).2) (a := R b) (Prod.ext h1 rfl)]
  exact ⟨hfr.trans h3, h4⟩

theorem OutSim.lift_bind {β δ : Type} {p : Addr} {M : Mem} {z : Res δ} {f : δ → Py Mem β} {g : δ → Res β}
    (h : ∀ d, OutSim p (f d) (g d) M) : OutSim p (Py.lift z >>= f) (z >>= g) M := by
  cases z with
  | ok d => exact h d
  | raise e => exact ⟨OnlyAt.refl p M, rfl⟩
  | timeout => exact ⟨OnlyAt.refl p M, rfl⟩

theorem Py.bind_bind {σ α β γ : Type} (x : Py σ α) (f : α → Py σ β) (g : β → Py σ γ) :
    (x >>= f) >>= g = x >>= fun a => f a >>= g := by
  funext s
  show Py.bind (Py.bind x f) g s = Py.bind x (fun a => Py.bind (f a) g) s
  unfold Py.bind
  rcases x s with ⟨_ | _ | _, s'⟩ <;> rfl

theorem Py.pure_bind' {σ α β : Type} (a : α) (f : α → Py σ β) : (pure a : Py σ α) >>= f = f a := rfl

theorem Res.bind_bind {α β γ : Type} (x : Res α) (f : α → Res β) (g : β → Res γ) :
    (x >>= f) >>= g = x >>= fun a => f a >>= g := by
  cases x <;> rfl

/-- What the loop over the components does with the result of a component routine before it is copied into
`labels`. -/
def takeOut {σ : Type} (k : Nat) (x : Py Mem (Addr × σ × Rng)) : Py Mem (Labels k × σ × Rng) := do
  let (b, strat, rng) ← x
  let out ← Mem.read b
  let vals ← Py.lift (fromArray k out)
  pure (vals, strat, rng)

/-- A component routine in memory changes only the copy it is given and has the result of the routine on
values. -/
def CompSim {σ : Type} {n : Nat} {ρ : Type} (comp' : CompMem σ n ρ)
    (comp : (idx : List (Fin n)) → Adj idx.length → Labels idx.length → (Fin idx.length → ρ) →
      σ → Rng → Res (Labels idx.length × σ × Rng)) : Prop :=
  ∀ idx adj (c : Addr) L attr st rng (M : Mem), M[c]? = some (arrayList L) →
    OutSim c (takeOut idx.length (comp' idx adj c attr st rng)) (comp idx adj L attr st rng) M

/-- A routine that returns the array it was given. -/
theorem takeOut_sim {σ : Type} {k : Nat} {p : Addr} {x : Py Mem (Addr × σ × Rng)}
    {y : Res (Labels k × σ × Rng)} {M : Mem}
    (h : Sim p (fun z => (p, z.2)) (fun z => z.1) x y M) : OutSim p (takeOut k x) y M := by
  have hb := Sim.bind_out (g := fun z : Labels k × σ × Rng => .ok z)
    (f := fun z : Addr × σ × Rng => (do
      let out ← Mem.read z.1
      let vals ← Py.lift (fromArray k out)
      pure (vals, z.2.1, z.2.2) : Py Mem (Labels k × σ × Rng))) h (fun b M1 h1 => by
      unfold OutSim
      rw [Py.bind_eq (read_eq h1), fromArray_arrayList]
      exact ⟨OnlyAt.refl _ _, rfl⟩)
  revert hb
  cases y <;> exact id

theorem azpComp_sim {n q : Nat} {ρ : Type} {obj' : ObjectiveMem ρ} {obj : Objective ρ}
    (hobj : ObjSim obj' obj) (expf : ℚ → ℚ) (fuel : Nat) :
    CompSim (azpCompMem (n := n) (q := q) expf obj' fuel) (azpComp expf obj fuel) := by
  intro idx adj c L attr st rng M h
  apply takeOut_sim
  unfold azpCompMem azpComp
  exact Sim.ok_bind (hobj c L attr M h).1 fun M1 h1 =>
    azpComponent_sim adj (strat_opsSim hobj expf _ attr c) fuel L _ rng M1 h1

theorem basicComp_sim {n q : Nat} {ρ : Type} {obj' : ObjectiveMem ρ} {obj : Objective ρ}
    (hobj : ObjSim obj' obj) (expf : ℚ → ℚ) (fuel : Nat) (len : Option Nat) (reps : Int) :
    CompSim (basicCompMem (n := n) (q := q) expf obj' fuel len reps) (fun idx a init at' st rng =>
      basicComponent (Strat.ops expf (fun i => idx.get i) at' obj) obj at' a len reps fuel init
        (st.start (obj.call init at')) rng) := by
  intro idx adj c L attr st rng M h
  apply takeOut_sim
  unfold basicCompMem
  exact Sim.ok_bind (hobj c L attr M h).1 fun M1 h1 =>
    basicComponent_sim attr adj (strat_opsSim hobj expf _ attr c) hobj len reps fuel L _ rng M1 h1

theorem new_eq (l : List Int) (M : Mem) : Mem.new l M = (.ok M.length, M ++ [l]) := rfl

theorem getElem?_new (M : Mem) (l : List Int) : (M ++ [l])[M.length]? = some l := by simp

theorem reactComp_sim {n q : Nat} {ρ : Type} {obj' : ObjectiveMem ρ} {obj : Objective ρ}
    (hobj : ObjSim obj' obj) (expf : ℚ → ℚ) (maxIt : Nat) (k1 k2 : Int) :
    CompSim (reactCompMem (n := n) (q := q) expf obj' maxIt k1 k2) (fun idx a init at' self rng => do
      let (out, self') ← reactComponentList (Strat.ops expf (fun i => idx.get i) at' obj) obj at' a
        maxIt k1 k2 init
        ⟨self.visited, self.avg, self.repCounter, self.strat.start (obj.call init at'), rng⟩
      let labels ← fromArray idx.length out
      .ok (labels, ⟨self'.visited, self'.avg, self'.repCounter, self'.strat⟩, self'.rng)) := by
  intro idx adj c L attr st rng M h
  unfold takeOut reactCompMem reactComponentMem reactComponentList
  simp only [Py.bind_bind, Py.pure_bind']
  refine Sim.ok_bind_out (hobj c L attr M h).1 fun M h => ?_
  dsimp only [id]
  unfold OutSim
  rw [Py.bind_eq (read_eq h)]
  split_ifs
  · rw [Py.pure_bind']
    dsimp only
    rw [Py.bind_eq (read_eq h)]
    rw [Res.bind_ok, fromArray_arrayList]
    exact ⟨OnlyAt.refl _ _, rfl⟩
  · simp only [Py.bind_bind, Res.bind_bind]
    refine Sim.bind_out (reactLoop_sim attr adj (strat_opsSim hobj expf _ attr c) hobj k1 k2 st.avg maxIt
      none none ⟨L, ⟨[], some 1⟩, st.visited, false, st.strat.start (obj.call L attr), rng⟩ M h) ?_
    rintro ⟨last, s⟩ M1 h1
    dsimp only
    refine OutSim.lift_bind fun out => ?_
    unfold OutSim
    rw [Py.bind_eq (new_eq out M1), Py.pure_bind']
    dsimp only
    rw [Py.bind_eq (read_eq (getElem?_new M1 out)), Res.bind_ok]
    refine ⟨(OnlyAt.append c M1 [out]).trans ?_, ?_⟩
    · cases fromArray idx.length out <;> exact OnlyAt.refl _ _
    · show _ = (fromArray idx.length out >>= _)
      cases fromArray idx.length out <;> rfl

section
variable {σ : Type} {n : Nat} {ρ : Type} (adj : Adj n) (attr : Fin n → ρ) {comp' : CompMem σ n ρ}
  {comp : (idx : List (Fin n)) → Adj idx.length → Labels idx.length → (Fin idx.length → ρ) →
      σ → Rng → Res (Labels idx.length × σ × Rng)}

theorem fitStep_sim (hcomp : CompSim comp' comp) (y a : Addr) (Y lab : Labels n) (strat : σ) (rng : Rng)
    (M : Mem) (hy : M[y]? = some (arrayList Y)) (ha : M[a]? = some (arrayList lab)) :
    Sim a (fun z => z.2) (fun z => z.1) (fitStepMem adj attr comp' y a strat rng)
      (fitStep adj attr comp Y lab strat rng) M := by
  have hlt : a < M.length := (List.getElem?_eq_some_iff.1 ha).1
  unfold fitStepMem fitStep
  generalize hidx : ((List.finRange n).filter fun i => decide (Y i ≠ -1)) = idx
  have hc := hcomp idx (subAdj adj idx) M.length (fun i => Y (idx.get i)) (fun i => attr (idx.get i))
    strat rng (M ++ [arrayList fun i : Fin idx.length => Y (idx.get i)]) (getElem?_new _ _)
  unfold OutSim takeOut at hc
  have hx : (do
        let yv ← Mem.view n y
        let idx := (List.finRange n).filter fun i => decide (yv i ≠ -1)
        let c ← Mem.new (arrayList fun i : Fin idx.length => yv (idx.get i))
        let (b, strat, rng) ← comp' idx (subAdj adj idx) c (fun i => attr (idx.get i)) strat rng
        let out ← Mem.read b
        let vals ← Py.lift (fromArray idx.length out)
        Mem.putAll a idx vals
        pure (strat, rng) : Py Mem (σ × Rng)) M =
      (takeOut idx.length (comp' idx (subAdj adj idx) M.length (fun i => attr (idx.get i)) strat rng) >>=
        fun z => Mem.putAll a idx z.1 >>= fun _ => pure z.2)
        (M ++ [arrayList fun i : Fin idx.length => Y (idx.get i)]) := by
    rw [Py.bind_eq (view_eq hy)]
    subst hidx
    dsimp only
    rw [Py.bind_eq (new_eq _ M)]
    unfold takeOut
    simp only [Py.bind_bind, Py.pure_bind']
  unfold Sim
  rw [hx]
  change OnlyAt _ _ (takeOut _ _ _).2 ∧ (takeOut _ _ _).1 = _ at hc
  rcases hr : takeOut idx.length (comp' idx (subAdj adj idx) M.length (fun i => attr (idx.get i)) strat rng)
    (M ++ [arrayList fun i : Fin idx.length => Y (idx.get i)]) with ⟨r, M1⟩
  rw [hr] at hc
  obtain ⟨h1, h2⟩ := hc
  dsimp only at h1 h2
  have hM : Preserved M M1 := h1.preserved (Preserved.append M _) le_rfl
  dsimp only
  rw [← h2]
  cases r with
  | ok z =>
    have hp : Mem.putAll a idx z.1 M1 = (.ok (), M1.set a (arrayList (scatter idx z.1 lab))) := by
      unfold Mem.putAll
      rw [Py.bind_eq (view_eq (hM a _ ha))]
      rfl
    rw [Py.bind_eq hr, Py.bind_eq hp]
    exact ⟨(hM.onlyAt a).trans (OnlyAt.set a M1 _), rfl, getElem?_set_here (hM a _ ha) _⟩
  | raise e =>
    rw [Py.bind_eq_raise hr]
    exact ⟨hM.onlyAt a, rfl⟩
  | timeout =>
    rw [Py.bind_eq_timeout hr]
    exact ⟨hM.onlyAt a, rfl⟩

/-- One step of a generator in memory yields a new array with the elements the step on values yields; no
array is changed. -/
def StepSim (I : Mem → Prop) (s' : Rng → Py Mem (Option Addr × Rng)) (s : Rng → Res (Yielded n × Rng)) :
    Prop :=
  ∀ r M, I M → Preserved M (s' r M).2 ∧
    match s r with
    | .ok (.array Y, r') => ∃ y, (s' r M).1 = .ok (some y, r') ∧ (s' r M).2[y]? = some (arrayList Y)
    | .ok (.dict, r') => (s' r M).1 = .ok (none, r')
    | .raise e => (s' r M).1 = .raise e
    | .timeout => (s' r M).1 = .timeout

theorem fitLoop_sim (hcomp : CompSim comp' comp) {I : Mem → Prop} {a : Addr}
    (hI : ∀ M M', I M → OnlyAt a M M' → I M') {gen' : GenMem} {gen : Gen n}
    (hgen : List.Forall₂ (StepSim I) gen' gen) :
    ∀ (lab : Labels n) (strat : σ) (rng : Rng) (M : Mem), I M → M[a]? = some (arrayList lab) →
    Sim a (fun z => z.2) (fun z => z.1) (fitLoopMem adj attr comp' gen' a strat rng)
      (fitLoop adj attr comp gen lab strat rng) M := by
  induction hgen with
  | nil =>
    intro lab strat rng M _ h
    unfold fitLoopMem fitLoop
    exact Sim.ret rfl h
  | @cons s' s gen' gen hs _ ih =>
    intro lab strat rng M hM h
    unfold fitLoopMem fitLoop
    obtain ⟨h1, h2⟩ := hs rng M hM
    rcases hr : s' rng M with ⟨r, M1⟩
    rw [hr] at h1 h2
    dsimp only at h1 h2
    have hA : OnlyAt a M M1 := h1.onlyAt a
    unfold Sim
    rcases hsr : s rng with ⟨Y | _, r'⟩ | e | _
    · rw [hsr] at h2
      obtain ⟨y, rfl, h3⟩ := h2
      rw [Py.bind_eq hr, Res.bind_ok]
      dsimp only
      have hb := Sim.bind_frame (fitStep_sim adj attr hcomp y a Y lab strat r' M1 h3 (h1 a _ h))
        (f := fun z => fitLoopMem adj attr comp' gen' a z.1 z.2)
        (g := fun z => fitLoop adj attr comp gen z.1 z.2.1 z.2.2)
        (R' := fun z => z.2) (lab' := fun z => z.1)
        fun z M2 _ hfr hz => ih z.1 z.2.1 z.2.2 M2 (hI M1 M2 (hI M M1 hM hA) hfr) hz
      exact ⟨hA.trans hb.1, hb.2⟩
    · rw [hsr] at h2
      subst h2
      rw [Py.bind_eq hr, Res.bind_ok]
      exact ⟨hA, rfl⟩
    · rw [hsr] at h2
      subst h2
      rw [Py.bind_eq_raise hr]
      exact ⟨hA, rfl⟩
    · rw [hsr] at h2
      subst h2
      rw [Py.bind_eq_timeout hr]
      exact ⟨hA, rfl⟩

theorem separate_stepSim (p : Addr) (init : Labels n) :
    List.Forall₂ (StepSim fun M => M[p]? = some (arrayList init)) (separateMem adj p)
      ((separateComponents adj init).map fun y r => .ok (.array y, r)) := by
  unfold separateMem separateComponents
  rw [List.map_map, List.forall₂_map_left_iff, List.forall₂_map_right_iff, List.forall₂_same]
  intro comp _ r M h
  dsimp only [Function.comp]
  rw [Py.bind_eq (view_eq h), Py.bind_eq (new_eq _ M)]
  exact ⟨Preserved.append M _, M.length, rfl, getElem?_new M _⟩

theorem yield_stepSim (gen : Gen n) :
    List.Forall₂ (StepSim fun _ => True) (gen.map yieldMem) gen := by
  rw [List.forall₂_map_left_iff, List.forall₂_same]
  intro s _ r M _
  unfold yieldMem
  rcases s r with ⟨Y | _, r'⟩ | e | _
  · exact ⟨Preserved.append M _, M.length, rfl, getElem?_new M _⟩
  · exact ⟨Preserved.refl M, rfl⟩
  · exact ⟨Preserved.refl M, rfl⟩
  · exact ⟨Preserved.refl M, rfl⟩

/-- The array passed as `initial_labels` and its elements. -/
def HoldsArray (M : Mem) : Option Addr → Option (Labels n) → Prop
  | none, none => True
  | some p, some L => M[p]? = some (arrayList L)
  | _, _ => False

/-- A call of `fit` in memory: outcome and state are those of `fit` on values, no array that existed before
is changed, and the result is a new array. -/
def FitSim (x : Py Mem (Addr × σ × Rng)) (y : Res (Labels n × σ × Rng)) (M : Mem) : Prop :=
  Preserved M (x M).2 ∧
  match y with
  | .ok (L, st, r) => ∃ a, M.length ≤ a ∧ (x M).1 = .ok (a, st, r) ∧ (x M).2[a]? = some (arrayList L)
  | .raise e => (x M).1 = .raise e
  | .timeout => (x M).1 = .timeout

theorem fitLoop_fitSim {x : Py Mem (σ × Rng)} {y : Res (Labels n × σ × Rng)} {M : Mem}
    (h : Sim M.length (fun z => z.2) (fun z => z.1) x y (M ++ [arrayList fun _ : Fin n => -1])) :
    FitSim (do
      let labels ← Mem.new (arrayList fun _ : Fin n => -1)
      let (strat, rng) ← x
      pure (labels, strat, rng)) y M := by
  obtain ⟨h1, h2⟩ := h
  unfold FitSim
  rw [Py.bind_eq (new_eq _ M)]
  have hP := h1.preserved (Preserved.append M _) le_rfl
  rcases hr : x (M ++ [arrayList fun _ : Fin n => -1]) with ⟨r, M1⟩
  rw [hr] at h2 hP
  dsimp only at h2 hP
  cases y with
  | ok z =>
    obtain ⟨L, st, rng⟩ := z
    obtain ⟨rfl, h3⟩ := h2
    rw [Py.bind_eq hr]
    exact ⟨hP, M.length, le_rfl, rfl, h3⟩
  | raise e =>
    subst h2
    rw [Py.bind_eq_raise hr]
    exact ⟨hP, rfl⟩
  | timeout =>
    subst h2
    rw [Py.bind_eq_timeout hr]
    exact ⟨hP, rfl⟩

theorem fitWith_sim (hcomp : CompSim comp' comp) (o : MstOrder) (nRegions : Int) {initial : Option Addr}
    {init : Option (Labels n)} (strat : σ) (rng : Rng) {M : Mem} (h : HoldsArray M initial init) :
    FitSim (fitWithMem adj attr comp' o nRegions initial strat rng)
      (fitWith o adj attr comp nRegions init strat rng) M := by
  rcases initial with _ | p <;> rcases init with _ | L
  · unfold fitWithMem fitWith
    dsimp only
    have hl : M[M.length]? = none := by simp
    cases hg : generateInitialSol o adj nRegions rng with
    | ok z =>
      obtain ⟨gen, r⟩ := z
      exact fitLoop_fitSim (fitLoop_sim adj attr hcomp (I := fun _ => True) (fun _ _ _ _ => trivial)
        (yield_stepSim gen) (fun _ => -1) strat r _ trivial (getElem?_new M _))
    | raise e => exact ⟨Preserved.append M _, rfl⟩
    | timeout => exact ⟨Preserved.append M _, rfl⟩
  · exact h.elim
  · exact h.elim
  · have hL : M[p]? = some (arrayList L) := h
    unfold fitWithMem fitWith
    dsimp only
    unfold FitSim
    rw [Py.bind_eq (view_eq hL)]
    cases hg : assertFeasible L adj (some nRegions) with
    | ok _ =>
      have hp : p ≠ M.length := ne_of_lt (List.getElem?_eq_some_iff.1 hL).1
      refine fitLoop_fitSim (fitLoop_sim adj attr hcomp (I := fun M => M[p]? = some (arrayList L)) ?_
        (separate_stepSim adj p L) (fun _ => -1) strat rng _ (Preserved.append M _ p _ hL)
        (getElem?_new M _))
      intro M1 M2 h1 h2
      rw [h2.2 p (List.getElem?_eq_some_iff.1 h1).1 hp, h1]
    | raise e => exact ⟨Preserved.refl M, rfl⟩
    | timeout => exact ⟨Preserved.refl M, rfl⟩

end

/-! ### Simulated annealing -/

section
variable {n : Nat} {azp' : Option Addr → Strat n 0 → Rng → Py Mem (Addr × Strat n 0 × Rng)}
  {azp : Option (Labels n) → Strat n 0 → Rng → Res (Labels n × Strat n 0 × Rng)}

/-- Where the array `a` comes from: if there was a run, it is new, otherwise it is the array `cur`. -/
def Source (M : Mem) (cur : Option Addr) (run : Prop) (a : Option Addr) : Prop :=
  (run → ∃ x, a = some x ∧ M.length ≤ x) ∧ (¬ run → a = cur)

/-- A call of `fit` that gives back an array or `None`: outcome and state are those of `fit` on values, and
no array that existed before is changed.  `L` and `R` are the two parts of a result. -/
def OptOut {α β : Type} (L : β → Option (Labels n)) (R : Option Addr → β → α) (Q : Option Addr → Prop)
    (M : Mem) (z : Res α × Mem) (y : Res β) : Prop :=
  Preserved M z.2 ∧
  match y with
  | .ok b => ∃ a, z.1 = .ok (R a b) ∧ HoldsArray z.2 a (L b) ∧ Q a
  | .raise e => z.1 = .raise e
  | .timeout => z.1 = .timeout

theorem HoldsArray.mono {M M' : Mem} (h : Preserved M M') {a : Option Addr} {L : Option (Labels n)}
    (ha : HoldsArray M a L) : HoldsArray M' a L := by
  rcases a with _ | a <;> rcases L with _ | L
  · trivial
  · exact ha.elim
  · exact ha.elim
  · exact h a _ ha

theorem OptOut.after {α β : Type} {L : β → Option (Labels n)} {R : Option Addr → β → α}
    {Q Q' : Option Addr → Prop} {z : Res α × Mem} {y : Res β} {M M1 : Mem} (h : OptOut L R Q M1 z y)
    (hM : Preserved M M1) (hQ : ∀ a, Q a → Q' a) : OptOut L R Q' M z y := by
  obtain ⟨h1, h2⟩ := h
  refine ⟨hM.trans h1, ?_⟩
  cases y with
  | ok b =>
    obtain ⟨a, h3, h4, h5⟩ := h2
    exact ⟨a, h3, h4, hQ a h5⟩
  | raise e => exact h2
  | timeout => exact h2

theorem saInner_sim (hazp : ∀ (cur : Option Addr) (curL : Option (Labels n)) st rng (M : Mem),
      HoldsArray M cur curL → FitSim (azp' cur st rng) (azp curL st rng) M) (maxIt : Option Int) :
    ∀ (fuel it : Nat) (cur : Option Addr) (curL : Option (Labels n)) (st : Strat n 0) (rng : Rng) (M : Mem),
    HoldsArray M cur curL →
    OptOut (fun z : Option (Labels n) × Strat n 0 × Rng => z.1) (fun a z => (a, z.2))
      (Source M cur ((belowMax it maxIt && !st.saAlert) = true)) M
      (saInnerMem azp' maxIt fuel it cur st rng M) (saInner azp maxIt fuel it curL st rng) := by
  intro fuel
  induction fuel with
  | zero =>
    intro it cur curL st rng M h
    unfold saInnerMem saInner
    split_ifs with c
    · exact ⟨Preserved.refl M, rfl⟩
    · exact ⟨Preserved.refl M, cur, rfl, h, fun c' => absurd c' c, fun _ => rfl⟩
  | succ fuel ih =>
    intro it cur curL st rng M h
    unfold saInnerMem saInner
    split_ifs with c
    · obtain ⟨h1, h2⟩ := hazp cur curL st rng M h
      rcases hr : azp' cur st rng M with ⟨r, M1⟩
      rw [hr] at h1 h2
      dsimp only at h1 h2
      dsimp only
      rcases hy : azp curL st rng with ⟨new, st', rng'⟩ | e | _ <;> rw [hy] at h2
      · obtain ⟨a, ha, rfl, hnew⟩ := h2
        rw [Py.bind_eq hr, Res.bind_ok]
        dsimp only
        have hrec : OptOut (fun z : Option (Labels n) × Strat n 0 × Rng => z.1) (fun a z => (a, z.2))
            (Source M1 (some a) ((belowMax (it + 1) maxIt && !st'.saAlert) = true)) M1
            (saInnerMem azp' maxIt fuel (it + 1) (some a) st' rng' M1)
            (saInner azp maxIt fuel (it + 1) (some new) st' rng') :=
          ih (it + 1) (some a) (some new) st' rng' M1 hnew
        have hQ : ∀ b, Source M1 (some a) ((belowMax (it + 1) maxIt && !st'.saAlert) = true) b →
            Source M cur ((belowMax it maxIt && !st.saAlert) = true) b := by
          intro b hb
          refine ⟨fun _ => ?_, fun c' => absurd c c'⟩
          by_cases hc : (belowMax (it + 1) maxIt && !st'.saAlert) = true
          · obtain ⟨y, hy, hy'⟩ := hb.1 hc
            exact ⟨y, hy, h1.length_le.trans hy'⟩
          · exact ⟨a, hb.2 hc, ha⟩
        rcases cur with _ | p <;> rcases curL with _ | L
        · exact OptOut.after hrec h1 hQ
        · exact h.elim
        · exact h.elim
        · have hp : M1[p]? = some (arrayList L) := h1 p _ h
          dsimp only
          rw [Py.bind_eq (read_eq hp), Py.bind_eq (read_eq hnew)]
          split_ifs with hd
          · exact ⟨h1, some a, rfl, hnew, fun _ => ⟨a, rfl, ha⟩, fun c' => absurd c c'⟩
          · exact hrec.after h1 hQ
      · subst h2
        rw [Py.bind_eq_raise hr]
        exact ⟨h1, rfl⟩
      · subst h2
        rw [Py.bind_eq_timeout hr]
        exact ⟨h1, rfl⟩
    · exact ⟨Preserved.refl M, cur, rfl, h, fun c' => absurd c' c, fun _ => rfl⟩

theorem saReset_alert {q : Nat} (st : Strat n q) : st.saReset.saAlert = false := by
  cases st <;> rfl

theorem saOuter_sim (hazp : ∀ (cur : Option Addr) (curL : Option (Labels n)) st rng (M : Mem),
      HoldsArray M cur curL → FitSim (azp' cur st rng) (azp curL st rng) M) (P : SaParams) (cooling : ℚ)
    (innerFuel : Nat) :
    ∀ (fuel : Nat) (t : ℚ) (nm : Nat) (cur : Option Addr) (curL : Option (Labels n))
      (visited : List (List Int)) (st : Strat n 0) (rng : Rng) (M : Mem), HoldsArray M cur curL →
    OptOut (fun z : Option (Labels n) × List (List Int) × Strat n 0 × Rng => z.1) (fun a z => (a, z.2))
      (Source M cur ((nm : Int) < P.nonmovingSteps ∧ belowMax 0 P.maxIt = true)) M
      (saOuterMem azp' P cooling innerFuel fuel t nm cur visited st rng M)
      (saOuter azp P cooling innerFuel fuel t nm curL visited st rng) := by
  intro fuel
  induction fuel with
  | zero =>
    intro t nm cur curL visited st rng M h
    unfold saOuterMem saOuter
    split_ifs with c
    · exact ⟨Preserved.refl M, rfl⟩
    · exact ⟨Preserved.refl M, cur, rfl, h, fun c' => absurd c'.1 c, fun _ => rfl⟩
  | succ fuel ih =>
    intro t nm cur curL visited st rng M h
    unfold saOuterMem saOuter
    split_ifs with c
    · obtain ⟨h1, h2⟩ := saInner_sim hazp P.maxIt innerFuel 0 cur curL st.saReset rng M h
      rcases hr : saInnerMem azp' P.maxIt innerFuel 0 cur st.saReset rng M with ⟨r, M1⟩
      rw [hr] at h1 h2
      dsimp only at h1 h2
      dsimp only
      rcases hy : saInner azp P.maxIt innerFuel 0 curL st.saReset rng with ⟨L, st', rng'⟩ | e | _ <;>
        rw [hy] at h2
      · obtain ⟨a, rfl, hL, hs⟩ := h2
        rw [saReset_alert] at hs
        simp only [Bool.not_false, Bool.and_true] at hs
        rw [Py.bind_eq hr, Res.bind_ok]
        dsimp only at hL ⊢
        rcases a with _ | a <;> rcases L with _ | L
        · exact ⟨h1, rfl⟩
        · exact hL.elim
        · exact hL.elim
        · have ha : M1[a]? = some (arrayList L) := hL
          dsimp only
          rw [Py.bind_eq (read_eq ha)]
          have hs' : Source M cur ((nm : Int) < P.nonmovingSteps ∧ belowMax 0 P.maxIt = true) (some a) :=
            ⟨fun c' => hs.1 c'.2, fun c' => hs.2 fun c2 => c' ⟨c, c2⟩⟩
          have hQ : ∀ nm' : Nat, ∀ b,
              Source M1 (some a) ((nm' : Int) < P.nonmovingSteps ∧ belowMax 0 P.maxIt = true) b →
              Source M cur ((nm : Int) < P.nonmovingSteps ∧ belowMax 0 P.maxIt = true) b := by
            intro nm' b hb
            by_cases hc : (nm' : Int) < P.nonmovingSteps ∧ belowMax 0 P.maxIt = true
            · obtain ⟨y, hy, hy'⟩ := hb.1 hc
              exact ⟨fun _ => ⟨y, hy, h1.length_le.trans hy'⟩, fun c' => absurd ⟨c, hc.2⟩ c'⟩
            · rw [hb.2 hc]
              exact hs'
          by_cases c1 : P.repsBeforeTermination ≤ (visited.count (arrayList L) : Int)
          · rw [if_pos c1, if_pos c1]
            exact ⟨h1, some a, rfl, ha, hs'⟩
          · rw [if_neg c1, if_neg c1]
            by_cases c2 : (Strat.saSetTemperature (t * cooling) st').saMoveMade = true
            all_goals first | rw [if_pos c2, if_pos c2] | rw [if_neg c2, if_neg c2]
            · exact (ih _ nm (some a) (some L) _ _ _ M1 ha).after h1 (hQ nm)
            · exact (ih _ (nm + 1) (some a) (some L) _ _ _ M1 ha).after h1 (hQ (nm + 1))
      · subst h2
        rw [Py.bind_eq_raise hr]
        exact ⟨h1, rfl⟩
      · subst h2
        rw [Py.bind_eq_timeout hr]
        exact ⟨h1, rfl⟩
    · exact ⟨Preserved.refl M, cur, rfl, h, fun c' => absurd c'.1 c, fun _ => rfl⟩

end

theorem azpFit_sim {n q : Nat} {ρ : Type} {obj' : ObjectiveMem ρ} {obj : Objective ρ}
    (hobj : ObjSim obj' obj) (o : MstOrder) (expf : ℚ → ℚ) (fuel : Nat) (adj : Adj n) (attr : Fin n → ρ)
    (nRegions : Int) {initial : Option Addr} {init : Option (Labels n)} (strat : Strat n q) (rng : Rng)
    {M : Mem} (h : HoldsArray M initial init) :
    FitSim (azpFitMem o expf obj' fuel adj attr nRegions initial strat rng)
      (azpFit o expf obj fuel adj attr nRegions init strat rng) M :=
  fitWith_sim adj attr (azpComp_sim hobj expf fuel) o nRegions strat rng h

theorem basicTabuFit_sim {n q : Nat} {ρ : Type} {obj' : ObjectiveMem ρ} {obj : Objective ρ}
    (hobj : ObjSim obj' obj) (o : MstOrder) (expf : ℚ → ℚ) (fuel : Nat) (len : Option Nat) (reps : Int)
    (adj : Adj n) (attr : Fin n → ρ) (nRegions : Int) {initial : Option Addr} {init : Option (Labels n)}
    (strat : Strat n q) (rng : Rng) {M : Mem} (h : HoldsArray M initial init) :
    FitSim (basicTabuFitMem o expf obj' fuel len reps adj attr nRegions initial strat rng)
      (basicTabuFit o expf obj fuel len reps adj attr nRegions init strat rng) M :=
  fitWith_sim adj attr (basicComp_sim hobj expf fuel len reps) o nRegions strat rng h

theorem reactiveTabuFit_sim {n q : Nat} {ρ : Type} {obj' : ObjectiveMem ρ} {obj : Objective ρ}
    (hobj : ObjSim obj' obj) (o : MstOrder) (expf : ℚ → ℚ) (maxIt : Nat) (k1 k2 : Int)
    (adj : Adj n) (attr : Fin n → ρ) (nRegions : Int) {initial : Option Addr} {init : Option (Labels n)}
    (self : ReactSelf (Strat n q)) (rng : Rng) {M : Mem} (h : HoldsArray M initial init) :
    FitSim (reactiveTabuFitMem o expf obj' maxIt k1 k2 adj attr nRegions initial self rng)
      (reactiveTabuFit o expf obj maxIt k1 k2 adj attr nRegions init self rng) M :=
  fitWith_sim adj attr (reactComp_sim hobj expf maxIt k1 k2) o nRegions self rng h

theorem saFit_sim {n : Nat} {ρ : Type} {obj' : ObjectiveMem ρ} {obj : Objective ρ}
    (hobj : ObjSim obj' obj) (o : MstOrder) (expf : ℚ → ℚ) (outerFuel innerFuel azpFuel : Nat)
    (P : SaParams) (self : SaObj) (adj : Adj n) (attr : Fin n → ρ) (nRegions : Int)
    {initial : Option Addr} {init : Option (Labels n)} (cooling : ℚ) (rng : Rng) {M : Mem}
    (h : HoldsArray M initial init) :
    OptOut (fun z : Option (Labels n) × SaObj × Strat n 0 × Rng => z.1) (fun a z => (a, z.2))
      (Source M initial (0 < P.nonmovingSteps ∧ belowMax 0 P.maxIt = true)) M
      (saFitMem o expf obj' outerFuel innerFuel azpFuel P self adj attr nRegions initial cooling rng M)
      (saFit o expf obj outerFuel innerFuel azpFuel P self adj attr nRegions init cooling rng) := by
  unfold saFitMem saFit
  by_cases c : ¬ (0 < cooling ∧ cooling < 1)
  · rw [if_pos c, if_pos c]
    exact ⟨Preserved.refl M, rfl⟩
  · rw [if_neg c, if_neg c]
    cases newSaStrategy (n := n) (q := 0) P.initTemperature P.saMovesTerm with
    | raise e => exact ⟨Preserved.refl M, rfl⟩
    | timeout => exact ⟨Preserved.refl M, rfl⟩
    | ok st =>
      obtain ⟨h1, h2⟩ := saOuter_sim (azp' := fun cur st rng => azpFitMem o expf obj' azpFuel adj attr nRegions cur st rng)
        (azp := fun cur st rng => azpFit o expf obj azpFuel adj attr nRegions cur st rng)
        (fun cur curL st rng M h => azpFit_sim hobj o expf azpFuel adj attr nRegions st rng h)
        P cooling innerFuel outerFuel P.initTemperature 0 initial init self.visited
        (st.saSetMoveMade self.moveMade) rng M h
      rw [Res.bind_ok]
      rw [Py.bind_lift_ok]
      rcases hr : saOuterMem (fun cur st rng => azpFitMem o expf obj' azpFuel adj attr nRegions cur st rng)
        P cooling innerFuel outerFuel P.initTemperature 0 initial self.visited
        (st.saSetMoveMade self.moveMade) rng M with ⟨r, M1⟩
      rw [hr] at h1 h2
      rcases hy : saOuter (fun cur st rng => azpFit o expf obj azpFuel adj attr nRegions cur st rng)
        P cooling innerFuel outerFuel P.initTemperature 0 init self.visited
        (st.saSetMoveMade self.moveMade) rng with ⟨L, v, st', rng'⟩ | e | _ <;> rw [hy] at h2
      · obtain ⟨a, rfl, h3, h4⟩ := h2
        rw [Py.bind_eq hr, Res.bind_ok]
        exact ⟨h1, a, rfl, h3, by simpa using h4⟩
      · dsimp only at h2
        subst h2
        rw [Py.bind_eq_raise hr]
        exact ⟨h1, rfl⟩
      · dsimp only at h2
        subst h2
        rw [Py.bind_eq_timeout hr]
        exact ⟨h1, rfl⟩

/-! ### The max-p heuristic -/

/-- A local search object in memory. -/
def SearchSim {ς : Type} {n q : Nat} (ls' : LocalSearchMem ς n q) (ls : LocalSearch ς n q) : Prop :=
  (∀ spat thr st, ls'.wrap spat thr st = ls.wrap spat thr st) ∧
  ∀ p (i : Addr) (L : Labels n) st r (M : Mem), M[i]? = some (arrayList L) →
    OptOut (fun z : Option (Labels n) × ς × Rng => z.1) (fun a z => (a, z.2))
      (fun a => ∀ x, a = some x → x = i ∨ M.length ≤ x) M (ls'.fit p i st r M) (ls.fit p L st r)

section
variable {ς : Type} {n q : Nat} {ρ : Type} {ls' : LocalSearchMem ς n q} {ls : LocalSearch ς n q}
  {obj' : ObjectiveMem ρ} {obj : Objective ρ} (attr : Fin n → ρ) (maxP : Nat)

/-- The best partition so far. -/
def BestHolds (M : Mem) (M0 : Mem) : Option (Addr × ℚ) → Option (Labels n × ℚ) → Prop
  | none, none => True
  | some (a, v), some (L, w) => M[a]? = some (arrayList L) ∧ M0.length ≤ a ∧ v = w
  | _, _ => False

/-- A part of the search: no array of `M` is changed, and the best partition is an array that did not exist in
`M0`. -/
def BestOut (M0 M : Mem) (z : Res (Option (Addr × ℚ) × ς × Rng) × Mem)
    (y : Res (Option (Labels n × ℚ) × ς × Rng)) : Prop :=
  Preserved M z.2 ∧
  match y with
  | .ok b => ∃ a, z.1 = .ok (a, b.2) ∧ BestHolds z.2 M0 a b.1
  | .raise e => z.1 = .raise e
  | .timeout => z.1 = .timeout

theorem BestOut.after {M0 M M1 : Mem} {z : Res (Option (Addr × ℚ) × ς × Rng) × Mem}
    {y : Res (Option (Labels n × ℚ) × ς × Rng)} (h : BestOut M0 M1 z y) (hM : Preserved M M1) :
    BestOut M0 M z y := ⟨hM.trans h.1, h.2⟩

theorem BestHolds.mono {M0 M M' : Mem} (h : Preserved M M') {a : Option (Addr × ℚ)}
    {L : Option (Labels n × ℚ)} (ha : BestHolds M M0 a L) : BestHolds M' M0 a L := by
  rcases a with _ | ⟨a, v⟩ <;> rcases L with _ | ⟨L, w⟩
  · trivial
  · exact ha.elim
  · exact ha.elim
  · exact ⟨h a _ ha.1, ha.2⟩

theorem OnlyAt.preserved_of_same {p : Addr} {M M' : Mem} {l : List Int} (h : OnlyAt p M M')
    (h1 : M[p]? = some l) (h2 : M'[p]? = some l) : Preserved M M' := by
  intro b l' hb
  by_cases hp : b = p
  · subst hp
    rw [h2, ← hb, h1]
  · rw [h.2 b (List.getElem?_eq_some_iff.1 hb).1 hp, hb]

theorem searchInner_sim (hls : SearchSim ls' ls) (hobj : ObjSim obj' obj) (M0 : Mem) :
    ∀ (ps : List (List (List (Fin n)))) (best' : Option (Addr × ℚ)) (best : Option (Labels n × ℚ)) (st : ς)
      (r : Rng) (M : Mem), Preserved M0 M → BestHolds M M0 best' best →
    BestOut M0 M (searchInnerMem ls' obj' attr maxP ps best' st r M)
      (searchInner ls obj attr maxP ps best st r)
  | [], best', best, st, r, M, _, hb => by
    unfold searchInnerMem searchInner
    exact ⟨Preserved.refl M, best', rfl, hb⟩
  | p :: ps, best', best, st, r, M, hM, hb => by
    unfold searchInnerMem searchInner
    cases labelsOfPartition p with
    | raise e => exact ⟨Preserved.refl M, rfl⟩
    | timeout => exact ⟨Preserved.refl M, rfl⟩
    | ok init =>
      rw [Py.bind_lift_ok, Res.bind_ok, Py.bind_eq (new_eq _ M)]
      obtain ⟨h1, h2⟩ := hls.2 maxP M.length init st r (M ++ [arrayList init]) (getElem?_new M _)
      have h0 : Preserved M (M ++ [arrayList init]) := Preserved.append M _
      rcases hr : ls'.fit maxP M.length st r (M ++ [arrayList init]) with ⟨z, M1⟩
      rw [hr] at h1 h2
      dsimp only at h1 h2
      have h01 := h0.trans h1
      rcases hy : ls.fit maxP init st r with ⟨L, st', r'⟩ | e | _ <;> rw [hy] at h2
      · obtain ⟨a, rfl, h3, h4⟩ := h2
        rw [Py.bind_eq hr, Res.bind_ok]
        dsimp only at h3 ⊢
        rcases a with _ | a <;> rcases L with _ | L
        · exact ⟨h01, rfl⟩
        · exact h3.elim
        · exact h3.elim
        · have ha : M1[a]? = some (arrayList L) := h3
          have hfresh : M0.length ≤ a := by
            have := hM.length_le
            rcases h4 a rfl with rfl | h5
            · exact this
            · simp at h5
              omega
          obtain ⟨h5, h6, h7⟩ := (hobj a L attr M1 ha).1
          rcases hv : obj'.call a attr M1 with ⟨v, M2⟩
          rw [hv] at h5 h6 h7
          dsimp only [id] at h5 h6 h7 ⊢
          subst h6
          rw [Py.bind_eq hv]
          have h12 := h5.preserved_of_same ha h7
          have hP : Preserved M M2 := h01.trans h12
          refine (searchInner_sim hls hobj M0 ps _ _ st' r' M2 (hM.trans hP) ?_).after hP
          have hb2 := hb.mono hP
          rcases best' with _ | ⟨b', w'⟩ <;> rcases best with _ | ⟨b, w⟩
          · exact ⟨h7, hfresh, rfl⟩
          · exact hb.elim
          · exact hb.elim
          · obtain ⟨hb1, hb2, rfl⟩ := hb2
            dsimp only
            split_ifs
            · exact ⟨h7, hfresh, rfl⟩
            · exact ⟨hb1, hb2, rfl⟩
      · subst h2
        rw [Py.bind_eq_raise hr]
        exact ⟨h01, rfl⟩
      · subst h2
        rw [Py.bind_eq_timeout hr]
        exact ⟨h01, rfl⟩

theorem searchOuter_sim (hls : SearchSim ls' ls) (hobj : ObjSim obj' obj) (M0 : Mem)
    (spat : Fin n → Fin q → ℚ) (thr : Fin q → ℚ) (feasible : List (List (List (Fin n)))) :
    ∀ (rounds : List (List (List (Fin n)))) (best' : Option (Addr × ℚ)) (best : Option (Labels n × ℚ))
      (st : ς) (r : Rng) (M : Mem), Preserved M0 M → BestHolds M M0 best' best →
    BestOut M0 M (searchOuterMem ls' obj' attr maxP spat thr feasible rounds best' st r M)
      (searchOuter ls obj attr maxP spat thr feasible rounds best st r)
  | [], best', best, st, r, M, _, hb => by
    unfold searchOuterMem searchOuter
    exact ⟨Preserved.refl M, best', rfl, hb⟩
  | _ :: rounds, best', best, st, r, M, hM, hb => by
    unfold searchOuterMem searchOuter
    rw [hls.1]
    obtain ⟨h1, h2⟩ := searchInner_sim attr maxP hls hobj M0 feasible best' best (ls.wrap spat thr st) r M hM hb
    rcases hr : searchInnerMem ls' obj' attr maxP feasible best' (ls.wrap spat thr st) r M with ⟨z, M1⟩
    rw [hr] at h1 h2
    dsimp only at h1 h2
    rcases hy : searchInner ls obj attr maxP feasible best (ls.wrap spat thr st) r with
      ⟨L, st', r'⟩ | e | _ <;> rw [hy] at h2
    · obtain ⟨a, rfl, h3⟩ := h2
      rw [Py.bind_eq hr, Res.bind_ok]
      exact (searchOuter_sim hls hobj M0 spat thr feasible rounds a L st' r' M1 (hM.trans h1) h3).after h1
    · subst h2
      rw [Py.bind_eq_raise hr]
      exact ⟨h1, rfl⟩
    · subst h2
      rw [Py.bind_eq_timeout hr]
      exact ⟨h1, rfl⟩

theorem maxpFit_sim (hls : SearchSim ls' ls) (hobj : ObjSim obj' obj) (metric : ρ → ρ → ℚ) (adj : Adj n)
    (spat : Fin n → Fin q → ℚ) (thr : Fin q → ℚ) (maxIt : Nat) (st : ς) (r : Rng) (M : Mem) :
    OptOut (fun z : Nat × Option (Labels n) × ς × Rng => z.2.1) (fun a z => (z.1, a, z.2.2))
      (fun a => ∀ x, a = some x → M.length ≤ x) M
      (maxpFitMem ls' metric obj' adj attr spat thr maxIt st r M)
      (maxpFit ls metric obj adj attr spat thr maxIt st r) := by
  unfold maxpFitMem maxpFit
  cases construct metric adj attr spat thr maxIt 0 [] r with
  | raise e => exact ⟨Preserved.refl M, rfl⟩
  | timeout => exact ⟨Preserved.refl M, rfl⟩
  | ok z =>
    obtain ⟨maxP, kept, r⟩ := z
    rw [Py.bind_lift_ok, Res.bind_ok]
    dsimp only
    cases assignAll metric adj attr kept r with
    | raise e => exact ⟨Preserved.refl M, rfl⟩
    | timeout => exact ⟨Preserved.refl M, rfl⟩
    | ok z =>
      obtain ⟨feasible, r⟩ := z
      rw [Py.bind_lift_ok, Res.bind_ok]
      dsimp only
      obtain ⟨h1, h2⟩ := searchOuter_sim attr maxP hls hobj M spat thr feasible feasible none none st r M
        (Preserved.refl M) trivial
      rcases hr : searchOuterMem ls' obj' attr maxP spat thr feasible feasible none st r M with ⟨z, M1⟩
      rw [hr] at h1 h2
      dsimp only at h1 h2
      rcases hy : searchOuter ls obj attr maxP spat thr feasible feasible none st r with
        ⟨L, st', r'⟩ | e | _ <;> rw [hy] at h2
      · obtain ⟨a, rfl, h3⟩ := h2
        rw [Py.bind_eq hr, Res.bind_ok]
        refine ⟨h1, a.map Prod.fst, rfl, ?_, ?_⟩
        · rcases a with _ | ⟨a, v⟩ <;> rcases L with _ | ⟨L, w⟩
          · trivial
          · exact h3.elim
          · exact h3.elim
          · exact h3.1
        · rcases a with _ | ⟨a, v⟩ <;> rcases L with _ | ⟨L, w⟩
          · intro x hx
            cases hx
          · exact h3.elim
          · exact h3.elim
          · rintro x ⟨⟩
            exact h3.2.1
      · subst h2
        rw [Py.bind_eq_raise hr]
        exact ⟨h1, rfl⟩
      · subst h2
        rw [Py.bind_eq_timeout hr]
        exact ⟨h1, rfl⟩

end

/-- A local search whose `fit` is a call of `fit` as above. -/
theorem FitSim.search {σ : Type} {n : Nat} {x : Py Mem (Addr × σ × Rng)} {y : Res (Labels n × σ × Rng)}
    {M : Mem} (i : Addr) (h : FitSim x y M) :
    OptOut (fun z : Option (Labels n) × σ × Rng => z.1) (fun a z => (a, z.2))
      (fun a => ∀ x, a = some x → x = i ∨ M.length ≤ x) M
      ((do
        let (L, st, r) ← x
        pure (some L, st, r) : Py Mem (Option Addr × σ × Rng)) M)
      (do
        let (L, st, r) ← y
        .ok (some L, st, r)) := by
  obtain ⟨h1, h2⟩ := h
  rcases hr : x M with ⟨z, M1⟩
  rw [hr] at h1 h2
  dsimp only at h1 h2
  rcases y with ⟨L, st', r'⟩ | e | _
  · obtain ⟨a, ha, rfl, h3⟩ := h2
    rw [Py.bind_eq hr, Res.bind_ok]
    refine ⟨h1, some a, rfl, h3, ?_⟩
    rintro x ⟨⟩
    exact Or.inr ha
  · subst h2
    rw [Py.bind_eq_raise hr]
    exact ⟨h1, rfl⟩
  · subst h2
    rw [Py.bind_eq_timeout hr]
    exact ⟨h1, rfl⟩

section
variable {n q : Nat} {ρ : Type} {obj' : ObjectiveMem ρ} {obj : Objective ρ}

theorem azpSearch_sim (hobj : ObjSim obj' obj) (o : MstOrder) (expf : ℚ → ℚ) (fuel : Nat) (adj : Adj n)
    (attr : Fin n → ρ) :
    SearchSim (azpSearchMem (q := q) o expf obj' fuel adj attr) (azpSearch o expf obj fuel adj attr) :=
  ⟨fun _ _ _ => rfl, fun p i L st r _ h =>
    (azpFit_sim hobj o expf fuel adj attr p st r (initial := some i) (init := some L) h).search i⟩

theorem basicTabuSearch_sim (hobj : ObjSim obj' obj) (o : MstOrder) (expf : ℚ → ℚ) (fuel : Nat)
    (len : Option Nat) (reps : Int) (adj : Adj n) (attr : Fin n → ρ) :
    SearchSim (basicTabuSearchMem (q := q) o expf obj' fuel len reps adj attr)
      (basicTabuSearch o expf obj fuel len reps adj attr) :=
  ⟨fun _ _ _ => rfl, fun p i L st r _ h =>
    (basicTabuFit_sim hobj o expf fuel len reps adj attr p st r (initial := some i) (init := some L) h).search i⟩

theorem reactiveTabuSearch_sim (hobj : ObjSim obj' obj) (o : MstOrder) (expf : ℚ → ℚ) (searchIt : Nat)
    (k1 k2 : Int) (adj : Adj n) (attr : Fin n → ρ) :
    SearchSim (reactiveTabuSearchMem (q := q) o expf obj' searchIt k1 k2 adj attr)
      (reactiveTabuSearch o expf obj searchIt k1 k2 adj attr) :=
  ⟨fun _ _ _ => rfl, fun p i L st r _ h =>
    (reactiveTabuFit_sim hobj o expf searchIt k1 k2 adj attr p st r (initial := some i) (init := some L)
      h).search i⟩

theorem saSearch_sim (hobj : ObjSim obj' obj) (o : MstOrder) (expf : ℚ → ℚ)
    (outerFuel innerFuel azpFuel : Nat) (P : SaParams) (adj : Adj n) (attr : Fin n → ρ) :
    SearchSim (saSearchMem (q := q) o expf obj' outerFuel innerFuel azpFuel P adj attr)
      (saSearch o expf obj outerFuel innerFuel azpFuel P adj attr) := by
  refine ⟨fun _ _ _ => rfl, fun p i L self r M h => ?_⟩
  unfold saSearchMem saSearch
  dsimp only
  obtain ⟨h1, h2⟩ := saFit_sim hobj o expf outerFuel innerFuel azpFuel P self adj attr p
    (initial := some i) (init := some L) (85 / 100) r h
  rcases hr : saFitMem o expf obj' outerFuel innerFuel azpFuel P self adj attr p (some i) (85 / 100) r M
    with ⟨z, M1⟩
  rw [hr] at h1 h2
  dsimp only at h1 h2
  rcases hy : saFit o expf obj outerFuel innerFuel azpFuel P self adj attr p (some L) (85 / 100) r with
    ⟨L', self', st', r'⟩ | e | _ <;> rw [hy] at h2
  · obtain ⟨a, rfl, h3, h4⟩ := h2
    rw [Py.bind_eq hr, Res.bind_ok]
    refine ⟨h1, a, rfl, h3, ?_⟩
    rintro x rfl
    by_cases c : 0 < P.nonmovingSteps ∧ belowMax 0 P.maxIt = true
    · obtain ⟨y, hy, hy'⟩ := h4.1 c
      cases hy
      exact Or.inr hy'
    · have := h4.2 c
      cases this
      exact Or.inl rfl
  · subst h2
    rw [Py.bind_eq_raise hr]
    exact ⟨h1, rfl⟩
  · subst h2
    rw [Py.bind_eq_timeout hr]
    exact ⟨h1, rfl⟩

end

end Region
